import Verif.Lemmas.Comm

/-!
# Particle boundary processing and exchange (C16–C19)

The type `A` of "everything else" carried by a particle is arbitrary, so the statements about `Prt.rest` say
that individual particles (not just their number) are conserved: take `A` to be a unique tag.
-/

namespace Psc.Props

open Domain Ddc Bndp

variable {K A : Type} [Field K] [LinearOrder K] [IsStrictOrderedRing K] [FloorRing K]

/-! ## C16 -/

/-- **C16.** Boundary processing of a patch neither stops nor loses or duplicates a particle: the particles kept
and those in the outgoing buffers of the 26 directions are, together, exactly the particles that did not leave
through an absorbing or open domain boundary.  Every particle kept lies in the patch, every particle sent lies
in the patch it is sent to (in that patch's coordinates), and there are no other buffers. -/
theorem C16_partition (g : PatchP K) (hg : g.Ok) (prts : List (Prt K A)) (hn : ∀ p ∈ prts, Near g p.x) :
    ∃ b, process_patch g prts = some b ∧
      (b.kept.map Prt.rest ++ dirs.flatMap fun dir => (b.send (dir2idx dir)).map Prt.rest).Perm
        ((prts.filter fun p => ¬ Leaves g p.x).map Prt.rest) ∧
      (∀ q ∈ b.kept, Inside g q.x) ∧
      (∀ k, ∀ q ∈ b.send k, Inside g q.x ∧ ∃ dir, IsDir dir ∧ (∃ d, dir d ≠ 0) ∧ k = dir2idx dir) := by
  refine ⟨_, process_patch_eq hg prts hn, ?_, ?_, ?_⟩
  · rw [← Multiset.coe_eq_coe, ← Multiset.coe_add, coe_flatMap]
    simp only [List.map_filterMap]
    have hc : ((prts.filter fun p => ¬ Leaves g p.x).map Prt.rest : Multiset A) =
        (prts.map fun p => if Leaves g p.x then (0 : Multiset A) else {p.rest}).sum := by
      clear hn
      induction prts with
      | nil => rfl
      | cons a l ih =>
        rw [List.map_cons, List.sum_cons, ← ih]
        by_cases h : Leaves g a.x
        · simp [h]
        · rw [List.filter_cons_of_pos (by simpa using h)]; simp [h]
    rw [hc]
    simp only [coe_filterMap]
    rw [list_sum_comm, ← List.sum_map_add]
    refine congrArg List.sum (List.map_congr_left fun p _ => ?_)
    rw [← fate_count g p]
    congr 1
    · cases keepOf g p <;> rfl
    · refine congrArg List.sum (List.map_congr_left fun dir _ => ?_)
      cases sendOf g (dir2idx dir) p <;> rfl
  · intro q hq
    obtain ⟨p, hp, hk⟩ := List.mem_filterMap.1 hq
    unfold keepOf fate at hk
    split_ifs at hk
    simp only [Option.some.injEq] at hk
    subst hk
    exact fun d => newX_mem hg (hn p hp) d
  · intro k q hq
    obtain ⟨p, hp, hk⟩ := List.mem_filterMap.1 hq
    unfold sendOf fate at hk
    split_ifs at hk with h1 h2
    simp only at hk
    split_ifs at hk with h3
    simp only [Option.some.injEq] at hk
    subst hk
    refine ⟨fun d => newX_mem hg (hn p hp) d, newDir g p.x, newDir_isDir g p.x, ?_, h3.symm⟩
    by_contra hcon
    push Not at hcon
    exact h2 ⟨hcon 0, hcon 1, hcon 2⟩

/-- a 4×3×2 patch at the lower x boundary; reflecting in x, periodic in y, open in z -/
def exPatch : PatchP ℚ where
  ldims := ![4, 3, 2]
  dx := ![1/2, 1, 2]
  atLo := ![true, true, true]
  atHi := ![false, true, true]
  prt_lo := ![.reflecting, .periodic, .open]
  prt_hi := ![.reflecting, .periodic, .absorbing]

theorem exPatch_ok : exPatch.Ok := by intro d; fin_cases d <;> simp [exPatch]

/-- particles: inside, reflected in x and leaving through the periodic y boundary, leaving in x, leaving in z -/
def exPrts : List (Prt ℚ ℕ) :=
  [⟨![1/4, 1, 3], ![1, 2, 3], 0⟩, ⟨![-1/4, -1/2, 3], ![-1, -2, 3], 1⟩, ⟨![9/4, 1, 0], ![1, 0, 0], 2⟩,
   ⟨![1, 1, 4], ![0, 0, 1], 3⟩]

example : ∀ p ∈ exPrts, Near exPatch p.x := by
  intro p hp
  simp only [exPrts, List.mem_cons, List.not_mem_nil, or_false] at hp
  rcases hp with rfl | rfl | rfl | rfl <;> intro d <;> fin_cases d <;> simp [exPatch, PatchP.size] <;> norm_num

/-- the particle leaving in z is the only one dropped -/
example : (process_patch exPatch exPrts).map (fun b => (b.kept, dirs.filterMap fun dir =>
      if (b.send (dir2idx dir)).isEmpty then none else some (dir, b.send (dir2idx dir)))) =
    some ([⟨![1/4, 1, 3], ![1, 2, 3], 0⟩],
      [(![0, -1, 0], [⟨![1/4, 5/2, 3], ![1, -2, 3], 1⟩]), (![1, 0, 0], [⟨![1/4, 1, 0], ![1, 0, 0], 2⟩])]) := by
  decide +kernel

/-! ## C17 -/

/-- **C17.** A particle that is kept or sent keeps its charge, kind and tags (`rest`); in every direction in
which it did not hit a reflecting wall, its momentum is unchanged and its position in the frame of the patch it
is handed to (shifted by `dir` patch lengths) is the same physical position; at a reflecting wall it stays in
this row of patches, its momentum component is negated and its position is mirrored at the wall.  The one
exception is a particle exactly on the upper wall, whose mirror image is the wall itself: it is placed just
inside. -/
theorem C17_reexpressed (g : PatchP K) (hg : g.Ok) (prt : Prt K A) (hn : Near g prt.x) (q : Prt K A) (dir : I3)
    (h : process1 g prt = some (.send dir q) ∨ process1 g prt = some (.keep q) ∧ dir = fun _ => 0) :
    q.rest = prt.rest ∧ ∀ d,
      (¬ HitLo g prt.x d → ¬ HitHi g prt.x d → q.x d + dir d * g.size d = prt.x d ∧ q.u d = prt.u d) ∧
      (HitLo g prt.x d → dir d = 0 ∧ q.x d = -prt.x d ∧ q.u d = -prt.u d) ∧
      (HitHi g prt.x d → dir d = 0 ∧ q.u d = -prt.u d ∧
        q.x d = if prt.x d = g.size d then g.size d * (1 - 1 / 1000000) else 2 * g.size d - prt.x d) := by
  have hq : ¬ Leaves g prt.x ∧ q = ⟨newX g prt.x, newU g prt.x prt.u, prt.rest⟩ ∧ dir = newDir g prt.x := by
    rw [process1_eq hg hn] at h
    unfold fate at h
    by_cases h1 : Leaves g prt.x
    · simp [h1] at h
    · by_cases h2 : IsZero (newDir g prt.x)
      · simp only [h1, h2, if_false, if_true] at h
        rcases h with h | ⟨h, hd⟩
        · simp at h
        · simp only [Option.some.injEq, Fate.keep.injEq] at h
          refine ⟨h1, h.symm, ?_⟩
          rw [hd]; funext d
          obtain ⟨a, b, c⟩ := h2
          fin_cases d
          · exact a.symm
          · exact b.symm
          · exact c.symm
      · simp only [h1, h2, if_false] at h
        rcases h with h | ⟨h, hd⟩
        · simp only [Option.some.injEq, Fate.send.injEq] at h
          exact ⟨h1, h.2.symm, h.1.symm⟩
        · simp at h
  obtain ⟨hl, rfl, rfl⟩ := hq
  refine ⟨rfl, fun d => ?_⟩
  have hld : ¬ LeftOpen g prt.x d := fun h => hl ⟨d, h⟩
  have hs := hg.size_pos d
  unfold LeftOpen Removes at hld
  unfold HitLo HitHi newX newU newDir
  refine ⟨fun a b => ?_, fun a => ?_, fun a => ?_⟩
  · by_cases h1 : prt.x d < 0
    · have h2 : (!g.atLo d || decide (g.prt_lo d = .periodic)) = true := by
        by_contra h2
        simp only [Bool.or_eq_true, Bool.not_eq_true', decide_eq_true_eq, not_or, Bool.not_eq_false] at h2
        cases hb : g.prt_lo d <;> simp_all
      simp [h1, h2]
    · by_cases h3 : g.size d ≤ prt.x d
      · have h2 : (!g.atHi d || decide (g.prt_hi d = .periodic)) = true := by
          by_contra h2
          simp only [Bool.or_eq_true, Bool.not_eq_true', decide_eq_true_eq, not_or, Bool.not_eq_false] at h2
          cases hb : g.prt_hi d <;> simp_all
        simp [h1, h2, h3]
      · simp [h1, h3]
  · obtain ⟨a1, a2, a3⟩ := a
    simp [a1, a2, a3]
  · obtain ⟨a1, a2, a3⟩ := a
    have : ¬ prt.x d < 0 := by linarith
    simp [a1, a2, a3, this]

/-- **C17.** Globally: the patch a particle is sent to exists next to the sender, and sender's offset plus old
position equals receiver's offset plus new position up to whole periodic domain lengths (in directions without
reflection). -/
theorem C17_global_position (g : ExchP K) (hD : g.D.Valid) (hg : ∀ d, 0 < g.ldims d ∧ 0 < g.dx d)
    (r p r' p' : ℕ) (hrp : g.D.Has r p) (prt q : Prt K A) (dir : I3) (hn : Near (g.patch r p) prt.x)
    (h : process1 (g.patch r p) prt = some (.send dir q)) (hnei : g.D.nei r p dir = some (r', p')) (d : Fin 3)
    (hlo : ¬ HitLo (g.patch r p) prt.x d) (hhi : ¬ HitHi (g.patch r p) prt.x d) :
    ∃ k : ℤ, (g.D.bc d = false → k = 0) ∧
      (g.D.idx3 r' p' d : K) * (g.patch r p).size d + q.x d =
        (g.D.idx3 r p d : K) * (g.patch r p).size d + prt.x d + k * (g.D.np d * (g.patch r p).size d) := by
  have hk : (g.patch r p).Ok := hg
  have h17 := ((C17_reexpressed (g.patch r p) hk prt hn q dir (Or.inl h)).2 d).1 hlo hhi
  have hdir : IsDir dir := by
    rw [process1_eq hk hn] at h
    unfold fate at h
    split_ifs at h
    · exact absurd h (by simp)
    · exact absurd h (by simp)
    · simp only [Option.some.injEq, Fate.send.injEq] at h
      rw [← h.1]; exact newDir_isDir _ _
  have hin := (C25_idx3_owner g.D hD r p hrp).1
  obtain ⟨hh', -⟩ := C26_neighbour_symm g.D hD r p r' p' dir hrp hdir hnei
  have hst := (nei_eq_some hD hrp hh' hdir).1 hnei
  have hs := ((C26_neighbour_position g.D _ dir hin hdir).1 _ (neiIdx_eq_some.2 hst)).2 d
  unfold StepTo at hs
  have cast : ∀ k : ℤ, (g.D.idx3 r' p' d : ℤ) = g.D.idx3 r p d + dir d + k * g.D.np d →
      (g.D.idx3 r' p' d : K) = g.D.idx3 r p d + dir d + k * g.D.np d := by
    intro k hk'
    have := congrArg (Int.cast : ℤ → K) hk'
    push_cast at this
    exact this
  rcases hs with hs | ⟨hb, hs | hs⟩
  · refine ⟨0, fun _ => rfl, ?_⟩
    have := cast 0 (by omega)
    rw [← h17.1, this]; push_cast; ring
  · refine ⟨1, fun hb' => by simp [hb] at hb', ?_⟩
    have := cast 1 (by omega)
    rw [← h17.1, this]; push_cast; ring
  · refine ⟨-1, fun hb' => by simp [hb] at hb', ?_⟩
    have := cast (-1) (by omega)
    rw [← h17.1, this]; push_cast; ring

/-! ## C18 -/

/-- **C18.** `comm` succeeds on every rank, and afterwards each patch holds what it held before, untouched and
in the same order, followed by exactly the particles in the outgoing buffers (of all patches of all ranks, for
all 26 directions) whose neighbour in that direction is this patch, each once. -/
theorem C18_exchange {P : Type} (D : Decomp) (hD : D.Valid) (sb : SendBufs P) (bufs : ℕ → List P) (me : ℕ) :
    ∃ T, comm D sb bufs me = some T ∧ ∀ p, D.Has me p → ∃ new, T p = bufs p ++ new ∧
      new.Perm ((List.range D.counts.length).flatMap fun r => (List.range (D.nr_patches r)).flatMap fun q =>
        dirs.flatMap fun dir =>
          if (∃ d, dir d ≠ 0) ∧ D.nei r q dir = some (me, p) then sb r q (dir2idx dir) else []) := by
  refine ⟨_, comm_eq hD sb bufs me, fun p hp => ⟨_, List.append_assoc .., ?_⟩⟩
  refine (comm_perm hD sb me p hp).trans (List.Perm.of_eq ?_)
  refine List.flatMap_congr fun r _ => ?_
  refine List.flatMap_congr fun q _ => ?_
  refine List.flatMap_congr fun dir _ => ?_
  refine if_congr ?_ rfl rfl
  rw [neiP_eq]
  refine and_congr_left fun _ => ?_
  constructor
  · intro h
    by_contra hcon
    push Not at hcon
    exact h ⟨hcon 0, hcon 1, hcon 2⟩
  · rintro ⟨d, hd⟩ ⟨h0, h1, h2⟩
    fin_cases d
    · exact hd h0
    · exact hd h1
    · exact hd h2

/-- **C18.** Over the whole machine: if every outgoing buffer without a neighbour is empty, the particles held
after the exchange are exactly the particles held before plus the particles in the outgoing buffers. -/
theorem C18_total {P : Type} (D : Decomp) (hD : D.Valid) (sb : SendBufs P) (bufs : ℕ → ℕ → List P)
    (hsb : ∀ r q dir, D.Has r q → IsDir dir → (∃ d, dir d ≠ 0) → D.nei r q dir = none → sb r q (dir2idx dir) = []) :
    ∃ T : ℕ → ℕ → List P, (∀ me, comm D sb (bufs me) me = some (T me)) ∧
      ((allPatches D).flatMap fun rp => T rp.1 rp.2).Perm
        (((allPatches D).flatMap fun rp => bufs rp.1 rp.2) ++
          (allPatches D).flatMap fun rp => dirs.flatMap fun dir =>
            if ∃ d, dir d ≠ 0 then sb rp.1 rp.2 (dir2idx dir) else []) := by
  refine ⟨fun me p => bufs me p ++ fromLocal D sb me p ++ (nbrs D me).flatMap fun r => fromRank D sb me r p,
    fun me => comm_eq hD sb (bufs me) me, ?_⟩
  exact total_perm hD sb bufs hsb

/-- on the 2×2×1 decomposition with two ranks, a buffer sent by the patch of rank 0 across x ends up in patch 0
of rank 1, once (periodic in x with two patches: the other x direction leads to the same patch) -/
example : (comm exDecomp (fun r p k => if r = 0 ∧ p = 0 ∧ k = dir2idx ![1, 0, 0] then [7, 8] else [])
    (fun p => if p = 0 then [1] else []) 1).map (fun T => [T 0, T 1, T 2]) = some [[1, 7, 8], [], []] := by
  decide +kernel

/-! ## C16–C19 together -/

/-- **C16, C18, C19.** The whole of boundary processing and exchange, when in every direction with periodic
particles the fields are periodic too or no particle moves out of its patch (invariant directions): it succeeds on every rank, every particle afterwards lies inside the patch holding it, and the
particles of the whole machine are exactly those before without the ones that left through an absorbing or open
boundary.  (Missing for C19: without `hper` it is false, `C19_violation`.) -/
theorem C19_exchange_conserves_partial (g : ExchP K) (hD : g.D.Valid) (hg : ∀ d, 0 < g.ldims d ∧ 0 < g.dx d)
    (prts : ℕ → ℕ → List (Prt K A)) (hn : AllNear g prts)
    (hper : ∀ d, g.prt_lo d = .periodic ∨ g.prt_hi d = .periodic → g.D.bc d = true ∨
      ∀ r p, g.D.Has r p → ∀ q ∈ prts r p, 0 ≤ q.x d ∧ q.x d < (g.patch r p).size d) :
    ∃ T : ℕ → ℕ → List (Prt K A), (∀ me < g.D.counts.length, exchange g prts me = some (T me)) ∧
      (∀ r p, g.D.Has r p → ∀ q ∈ T r p, Inside (g.patch r p) q.x) ∧
      ((allPatches g.D).flatMap fun rp => (T rp.1 rp.2).map Prt.rest).Perm
        ((allPatches g.D).flatMap fun rp =>
          ((prts rp.1 rp.2).filter fun q => ¬ Leaves (g.patch rp.1 rp.2) q.x).map Prt.rest) := by
  obtain ⟨pb, hpb, hex⟩ := exchange_eq g hg prts hn
  have h16 : ∀ r p, g.D.Has r p → _ := fun r p h => C16_partition (g.patch r p) hg (prts r p) (hn r p h)
  have hsome : ∀ r p, g.D.Has r p → process_patch (g.patch r p) (prts r p) = some (pb r p) := by
    intro r p h
    rw [hpb r p h]
    exact process_patch_eq (g := g.patch r p) hg (prts r p) (hn r p h)
  have hsb : ∀ r q dir, g.D.Has r q → IsDir dir → (∃ d, dir d ≠ 0) → g.D.nei r q dir = none →
      (pb r q).send (dir2idx dir) = [] := by
    intro r q dir hh hd hz hno
    rw [hpb r q hh]
    exact send_empty g hD hg hh (fun d h => (hper d h).imp_right fun h' => h' r q hh) hd hno
  obtain ⟨T, hT, hperm⟩ := C18_total g.D hD (fun r p => (pb r p).send) (fun r p => (pb r p).kept) hsb
  refine ⟨T, fun me hme => (hex me hme).trans (hT me), ?_, ?_⟩
  · intro r p hh x hx
    obtain ⟨T', hT', hnew⟩ := C18_exchange g.D hD (fun r p => (pb r p).send) (fun p => (pb r p).kept) r
    have : T' = T r := by rw [hT r] at hT'; exact (Option.some.inj hT').symm
    subst this
    obtain ⟨new, hTp, hp⟩ := hnew p hh
    rw [hTp, List.mem_append] at hx
    rcases hx with hx | hx
    · obtain ⟨b, hb, -, hk, -⟩ := h16 r p hh
      rw [hsome r p hh, Option.some.injEq] at hb
      subst hb
      exact hk x hx
    · rw [hp.mem_iff] at hx
      simp only [List.mem_flatMap, List.mem_range] at hx
      obtain ⟨r', hr', q', hq', dir, hdir, hx⟩ := hx
      split_ifs at hx
      · have hh' : g.D.Has r' q' := has_iff.2 hq'
        obtain ⟨b, hb, -, -, hs⟩ := h16 r' q' hh'
        rw [hsome r' q' hh', Option.some.injEq] at hb
        subst hb
        exact (hs _ x hx).1
      · simp at hx
  · have h1 := hperm.map Prt.rest
    rw [List.map_append] at h1
    simp only [List.map_flatMap] at h1
    refine h1.trans ?_
    rw [← Multiset.coe_eq_coe, ← Multiset.coe_add, coe_flatMap, coe_flatMap, coe_flatMap, ← List.sum_map_add]
    refine congrArg List.sum (List.map_congr_left fun rp hrp => ?_)
    have hh := mem_allPatches.1 hrp
    obtain ⟨b, hb, hpm, -, hs⟩ := h16 rp.1 rp.2 hh
    rw [hsome rp.1 rp.2 hh, Option.some.injEq] at hb
    subst hb
    rw [← Multiset.coe_eq_coe.2 hpm, ← Multiset.coe_add]
    congr 1
    rw [coe_flatMap, coe_flatMap]
    refine congrArg List.sum (List.map_congr_left fun dir hdir => ?_)
    split_ifs with hz
    · rfl
    · have : (pb rp.1 rp.2).send (dir2idx dir) = [] := by
        rw [List.eq_nil_iff_forall_not_mem]
        intro x hx
        obtain ⟨-, dir', hd', hz', he⟩ := hs _ x hx
        have := dir2idx_inj (mem_dirs.1 hdir) hd' he
        subst this
        exact hz hz'
      rw [this]

/-- two patches in x on two ranks; particles periodic everywhere.  The argument is the field boundary condition
in each direction, from which `MrcDomain` takes the periodicity. -/
def exExch (fld : Fin 3 → Bool) : ExchP ℚ where
  D := ⟨![2, 1, 1], mrc_bc fld ![8, 4, 4], .bydim, [1, 1]⟩
  ldims := ![4, 4, 4]
  dx := fun _ => 1
  prt_lo := fun _ => .periodic
  prt_hi := fun _ => .periodic

/-- one particle, that has just left the first patch through the lower x boundary of the domain -/
def exMove (r p : ℕ) : List (Prt ℚ ℕ) :=
  if r = 0 ∧ p = 0 then [⟨![-1/2, 1, 1], ![-1, 0, 0], 42⟩] else []

theorem exMove_near (fld : Fin 3 → Bool) : AllNear (exExch fld) exMove := by
  intro r p _ q hq
  unfold exMove at hq
  split_ifs at hq
  · simp only [List.mem_cons, List.not_mem_nil, or_false] at hq
    subst hq
    intro d
    fin_cases d <;> simp [exExch, PatchP.size, ExchP.patch] <;> norm_num
  · simp at hq

/-- periodic fields: the particle arrives in the patch at the other end, as the hypotheses of
`C19_exchange_conserves_partial` are met -/
example : (∀ d, (exExch fun _ => true).prt_lo d = .periodic ∨ (exExch fun _ => true).prt_hi d = .periodic →
      (exExch fun _ => true).D.bc d = true) ∧ (exExch fun _ => true).D.Valid ∧
    exchange (exExch fun _ => true) exMove 0 ≠ none ∧
    (exchange (exExch fun _ => true) exMove 1).map (fun T => T 0) = some [⟨![7/2, 1, 1], ![-1, 0, 0], 42⟩] := by
  refine ⟨by decide, ⟨rfl, by decide⟩, ?_, by decide +kernel⟩
  have : (exchange (exExch fun _ => true) exMove 0).isSome = true := by decide +kernel
  exact Option.isSome_iff_ne_none.1 this

/-- **C19 is false.** With periodic particles but non-periodic fields, a particle crossing the boundary is lost:
boundary processing puts it into an outgoing buffer (it does not leave through an absorbing or open boundary),
and the exchange delivers it to nobody. -/
theorem C19_violation :
    (∀ d, (exExch fun _ => false).prt_lo d = .periodic ∧ (exExch fun _ => false).prt_hi d = .periodic) ∧
    AllNear (exExch fun _ => false) exMove ∧
    (∀ r p, ∀ q ∈ exMove r p, ¬ Leaves ((exExch fun _ => false).patch r p) q.x) ∧
    (exMove 0 0).length = 1 ∧
    ∀ me < 2, (exchange (exExch fun _ => false) exMove me).map (fun T => T 0) = some [] := by
  refine ⟨fun d => ⟨rfl, rfl⟩, exMove_near _, ?_, rfl, ?_⟩
  · rintro r p q - ⟨d, h⟩
    rcases h with ⟨-, -, h⟩ | ⟨-, -, h⟩ <;> rcases h with h | h <;> exact absurd h (by simp [exExch, ExchP.patch])
  · decide +kernel

end Psc.Props
