import Verif.Spec.Bgk
import Verif.Lemmas.DeckRun

/-!
# Lemmas for the BGK driver
-/

namespace Psc.Bgk

open Domain Ddc FieldStep Fields Spec Spec.Yee Moments InitDensity DeckRun

noncomputable section

variable {S : Pic.Setup} {I : In}

/-! ### potential -/

theorem inv_yz (hc : Pic.Scheme S) {d : Fin 3} (hd : d ≠ 0) : S.cfg.inv d = false := by
  obtain ⟨h1, -, -⟩ | ⟨h1, -, -⟩ := hc
  · rw [h1]; fin_cases d <;> first | rfl | exact absurd rfl hd
  · rw [h1]; fin_cases d <;> first | rfl | exact absurd rfl hd

/-- the coordinate of node `j` is not changed by `getCoord` -/
theorem coord_eq (hI : I.Fits S) (hF : Pic.Fit S 2) {d : Fin 3} (hd : d ≠ 0) {j : ℤ} (h : 0 ≤ j ∧ j ≤ S.c.gdims d) :
    getCoord I (corner I d + (j + 0) * S.P.dx d) = j * S.P.dx d - I.box_size / 2 := by
  have h0 : (0 : ℝ) ≤ j := by exact_mod_cast h.1
  have h1 : (j : ℝ) ≤ S.c.gdims d := by exact_mod_cast h.2
  have hb := hI.box d hd
  have hx := hF.dx d
  have e : corner I d = -(1 / 2) * I.box_size := by
    fin_cases d
    · exact absurd rfl hd
    · rfl
    · rfl
  have h2 := mul_nonneg h0 hx.le
  have h3 := mul_le_mul_of_nonneg_right h1 hx.le
  rw [e]
  unfold getCoord
  rw [if_neg (by linarith), if_neg (by linarith)]
  ring

/-- squares of coordinates are periodic -/
theorem sq_wrap (hI : I.Fits S) (hF : Pic.Fit S 2) (hc : Pic.Scheme S) {d : Fin 3} (hd : d ≠ 0) {x : I3} (h : 0 ≤ x d ∧ x d ≤ S.c.gdims d) :
    ((x d : ℝ) * S.P.dx d - I.box_size / 2) ^ 2 = ((S.problem.wrapI x d : ℝ) * S.P.dx d - I.box_size / 2) ^ 2 := by
  have hb := (hF.act d (inv_yz hc hd)).1
  have e : S.problem.wrapI x d = x d % S.c.gdims d := by
    show (if S.c.D.bc d = true then _ else _) = _
    rw [if_pos hb]; rfl
  rw [e]
  by_cases hx : x d = S.c.gdims d
  · rw [hx, Int.emod_self, hI.box d hd]
    push_cast
    ring
  · rw [Int.emod_eq_of_lt h.1 (by omega)]

theorem rho_node (hI : I.Fits S) (hF : Pic.Fit S 2) (hc : Pic.Scheme S) {x : I3} (h : ∀ d, d ≠ 0 → 0 ≤ x d ∧ x d ≤ S.c.gdims d) :
    rho I (SetupFields.node ⟨S.P.dx, corner I⟩ x) = dist S I (S.problem.wrapI x) := by
  unfold rho dist SetupFields.node SetupFields.posOf
  dsimp only
  rw [coord_eq hI hF (by decide) (h 1 (by decide)), coord_eq hI hF (by decide) (h 2 (by decide)),
    sq_wrap hI hF hc (by decide) (h 1 (by decide)), sq_wrap hI hF hc (by decide) (h 2 (by decide))]

theorem phi_per : Periodic S.c (phi S I) := fun x y h => by
  have : S.problem.wrapI x = S.problem.wrapI y := h
  unfold phi
  rw [this]

theorem field_per (d : Fin 3) : Periodic S.c (field S I d) := fun x y h => by
  unfold field
  rw [phi_per.dF _ _ d x y h]

theorem interior_range (hF : Pic.Fit S 2) (hc : Pic.Scheme S) {r p : ℕ} (hp : S.c.D.Has r p) {n : I3} (hn : Interior S.c n) (d : Fin 3) :
    0 ≤ S.c.off r p d + n d ∧ S.c.off r p d + n d < S.c.gdims d := by
  obtain ⟨C, hC, -, ha⟩ := code_of hc
  exact Moments.interior_global (grid_ok hF hC ha []) hp hn d

theorem setInterior_in {F : PF ℝ} {v : ℕ → I3 → ℝ} {n : I3} (hn : Interior S.c n) (m : ℕ) : setInterior S.g F v (m, n) = v m n := by
  unfold setInterior
  exact if_pos fun e => hn e

/-- what `initializePhi` and `initializeGradPhi` give -/
theorem grad_spec (hI : I.Fits S) (hF : Pic.Fit S 2) (hc : Pic.Scheme S) {w : ℤ} (hg : SetupFields.Ghosts S.c w) :
    ∃ ph gr, initializePhi S I = some ph ∧ initializeGradPhi S ph = some gr ∧ ∀ d : Fin 3, Holds S.c gr d fun x => -field S I d x := by
  obtain ⟨ph, h1, h2⟩ := SetupFields.scalar_some S.c w hg ⟨S.P.dx, corner I⟩ .NC (SetupFields.node ⟨S.P.dx, corner I⟩)
    (fun r p n => SetupFields.get_pos_NC S.c _ r p n _) (fun _ crd => I.psi (rho I crd)) SetupFields.fresh
  have h := hF.fits (le_refl 2)
  obtain ⟨gr, h3, h4, -⟩ := fillAll_spec h 0 3 (by omega) fun r p => setInterior S.g (SetupFields.fresh r p) fun m n =>
    if h : m < 3 then grad_ec S.g (ph r p) ⟨m, h⟩ n else 0
  refine ⟨ph, gr, h1, h3, fun d => h4 d _ (by omega) d.2 ?_ ?_⟩
  · intro x y hxy
    simp only [field_per d x y hxy]
  · intro r p hp n hn
    have hph : ∀ k, Stored S.c k → (∀ e, 0 ≤ S.c.off r p e + k e ∧ S.c.off r p e + k e ≤ S.c.gdims e) →
        ph r p (0, k) = phi S I fun e => S.c.off r p e + k e := by
      intro k hk hr
      rw [h2 r p hp k hk, rho_node hI hF hc (fun e _ => hr e)]
      simp [SetupFields.fresh, phi]
    have hr := interior_range hF hc hp hn
    refine (setInterior_in hn _).trans ?_
    rw [dif_pos d.2]
    unfold grad_ec field
    beta_reduce
    rw [neg_neg]
    unfold dF GridP.act
    cases hi : S.g.inv d with
    | true => simp
    | false =>
      rw [shift_up_eq, hph n (interior_stored h.ok hn) (fun e => ⟨(hr e).1, (hr e).2.le⟩),
        hph (shift n d 1) (h.shift_stored hn hi (by omega) (by omega)) (fun e => by
          have := hr e
          unfold shift
          split_ifs <;> omega), shift_add]
      simp only [Bool.false_eq_true, if_false, Bool.not_false, if_true]
      rfl

/-- what `initializeDivGradPhi` gives -/
theorem div_spec (hF : Pic.Fit S 2) {gr : Glob ℝ} (hgr : ∀ d : Fin 3, Holds S.c gr d fun x => -field S I d x) :
    ∃ dv, initializeDivGradPhi S gr = some dv ∧ ∀ r p, S.c.D.Has r p → ∀ n, Interior S.c n →
      -dv r p (0, n) = divE S.g.act S.P.dx (field S I) fun d => S.c.off r p d + n d := by
  have h := hF.fits (le_refl 2)
  have hneg : ∀ x, divE S.g.act S.g.dx (fun d x => -field S I d x) x = -divE S.g.act S.g.dx (field S I) x := by
    intro x
    have : ∀ (f : I3 → ℝ) d, dB S.g.act S.g.dx (fun x => -f x) d x = -dB S.g.act S.g.dx f d x := by
      intro f d
      unfold dB
      split_ifs
      · ring
      · simp
    unfold divE
    rw [this, this, this]; ring
  obtain ⟨dv, h3, h4, -⟩ := fillAll_spec h 0 1 (by omega) fun r p => setInterior S.g (SetupFields.fresh r p) fun _ n =>
    div_nc S.g (fun mn => gr r p (mn.1 - EX, mn.2)) n
  have h5 : Holds S.c dv 0 fun x => -divE S.g.act S.g.dx (field S I) x := by
    refine h4 0 _ (by omega) (by omega) ?_ ?_
    · intro x y hxy
      simp only [Periodic.divE field_per _ _ x y hxy]
    · intro r p hp n hn
      refine (setInterior_in hn _).trans ?_
      have := div_nc_spec h (σ := fun r p mn => gr r p (mn.1 - EX, mn.2)) (E := fun d x => -field S I d x)
        (fun d r p hp n hn => by
          have := hgr d r p hp n hn
          simpa [EX] using this) hp hn
      exact this.trans (hneg _)
  refine ⟨dv, h3, fun r p hp n hn => ?_⟩
  rw [h5 r p hp n (interior_stored h.ok hn), neg_neg]
  rfl

/-! ### particles -/

/-- what the driver asks for at the nodes of a patch -/
def asks (S : Pic.Setup) (I : In) (x : I3) (pop : ℕ) : ℝ := if pop = 0 then electrons S I x else ions S I x

theorem posOf_eq (r p : ℕ) (n : I3) : posOf S I r p n = SetupFields.node ⟨S.P.dx, corner I⟩ fun d => S.c.off r p d + n d := by
  funext d
  unfold posOf InitDensity.xb SetupFields.node SetupFields.posOf deck gridOf
  push_cast
  ring

theorem init_eq (hI : I.Fits S) (hF : Pic.Fit S 2) (hc : Pic.Scheme S) {dv : Glob ℝ} {r p : ℕ} (hp : S.c.D.Has r p)
    (hdv : ∀ n, Interior S.c n → -dv r p (0, n) = divE S.g.act S.P.dx (field S I) fun d => S.c.off r p d + n d) {n : I3} (hn : Interior S.c n)
    (pop : ℕ) (np : Setup.Np ℝ) :
    (init_np I (fun idx => -dv r p (0, idx)) pop (posOf S I r p n) n np).n = asks S I (fun d => S.c.off r p d + n d) pop ∧
      (init_np I (fun idx => -dv r p (0, idx)) pop (posOf S I r p n) n np).kind = np.kind := by
  have hr := interior_range hF hc hp hn
  have hw : S.problem.wrapI (fun d => S.c.off r p d + n d) = fun d => S.c.off r p d + n d := SetupFields.wrap_interior hF.valid hp hn
  have e : rho I (posOf S I r p n) = dist S I fun d => S.c.off r p d + n d := by
    rw [posOf_eq, rho_node hI hF hc (fun d _ => ⟨(hr d).1, (hr d).2.le⟩), hw]
  unfold init_np asks
  rw [e]
  by_cases h0 : pop = 0
  · rw [if_pos h0, if_pos h0]
    refine ⟨?_, rfl⟩
    dsimp only
    rw [hdv n hn]
    unfold electrons ions
    ring
  · rw [if_neg h0, if_neg h0]
    exact ⟨rfl, rfl⟩

theorem setupPatch_spec (hI : I.Fits S) (hF : Pic.Fit S 2) (hc : Pic.Scheme S) (ppud : ℝ) {dv : Glob ℝ} {r p : ℕ} (hp : S.c.D.Has r p)
    (hdv : ∀ n, Interior S.c n → -dv r p (0, n) = divE S.g.act S.P.dx (field S I) fun d => S.c.off r p d + n d) (R : Random) :
    ∃ l, setupPatch S I ppud (dv r p) R r p = some l ∧
      (∀ q ∈ l, q.kind < 2 ∧ S.P.q q.kind ≠ 0 ∧ ∀ d, 0 ≤ q.x d ∧ q.x d < S.c.ldims d * S.P.dx d) ∧
      ∀ g : R3 ℝ → ℕ → ℝ, (l.map fun q => weight S.P q * g q.x q.kind).sum =
        ∑ n ∈ ownedCells S.c, ∑ pop ∈ Finset.range 2, asks S I (fun d => S.c.off r p d + n d) pop * ppud *
          g (fun d => n d * S.P.dx d) pop := by
  have hlen : (setupParams (gridOf S ["e", "i"]) ppud (deck I)).q.length = 2 := rfl
  have hpops : (setupParams (gridOf S ["e", "i"]) ppud (deck I)).n_populations = 2 := rfl
  have hnp : ∀ pop, (Setup.np0 (setupParams (gridOf S ["e", "i"]) ppud (deck I)) pop).kind = if pop < 2 then pop else 0 := fun pop => by
    rw [np0_eq]; rfl
  have hkind : ∀ n pop np, (init_np I (fun idx => -dv r p (0, idx)) pop (posOf S I r p n) n np).kind = np.kind := by
    intro n pop np
    unfold init_np
    split_ifs <;> rfl
  have hk : ∀ n pop, pop < (setupParams (gridOf S ["e", "i"]) ppud (deck I)).n_populations →
      (init_np I (fun idx => -dv r p (0, idx)) pop (posOf S I r p n) n (Setup.np0 (setupParams (gridOf S ["e", "i"]) ppud (deck I)) pop)).kind <
        (setupParams (gridOf S ["e", "i"]) ppud (deck I)).q.length := by
    intro n pop hpop
    rw [hkind, hnp, hlen]
    split_ifs <;> omega
  have spec := fun g => callsOf_spec (setupParams (gridOf S ["e", "i"]) ppud (deck I)) rfl rfl R.rnd
    (fun n kind => init_np I (fun idx => -dv r p (0, idx)) kind (posOf S I r p n) n) (posOf S I r p) g hk (cells S.c.ldims) 0
  obtain ⟨calls, hcs, hmem, -⟩ := spec fun _ _ => 0
  have hsum : ∀ g : R3 ℝ → ℕ → ℝ, (calls.map fun c => (c.n_in_cell.toNat : ℝ) * c.weight * g c.pos c.kind).sum =
      ∑ n ∈ ownedCells S.c, ∑ pop ∈ Finset.range 2, asks S I (fun d => S.c.off r p d + n d) pop * ppud * g (posOf S I r p n) pop := by
    intro g
    obtain ⟨calls', hc', -, hs⟩ := spec g
    rw [hcs] at hc'
    rw [Option.some.inj hc', hs, cells_sum]
    refine Finset.sum_congr rfl fun n hn => ?_
    rw [hpops]
    refine Finset.sum_congr rfl fun pop hpop => ?_
    obtain ⟨e1, e2⟩ := init_eq hI hF hc hp hdv (mem_owned.1 hn) pop (Setup.np0 (setupParams (gridOf S ["e", "i"]) ppud (deck I)) pop)
    rw [e1, e2, hnp, if_pos (Finset.mem_range.1 hpop)]
    rfl
  have hxe : ∀ d, xe (gridOf S ["e", "i"]) (deck I) r p d = xb (gridOf S ["e", "i"]) (deck I) r p d + S.c.ldims d * S.P.dx d := by
    intro d; unfold xe xb gridOf; ring
  have hq2 : ∀ k, k < 2 → S.P.q k ≠ 0 := by
    intro k hk
    obtain rfl | rfl : k = 0 ∨ k = 1 := by omega
    · rw [hI.q_e]; exact hI.q_e0
    · rw [hI.q_i]; exact hI.q_i0
  have hin : ∀ c ∈ calls, c.kind < 2 ∧ Inside (gridOf S ["e", "i"]) (xb (gridOf S ["e", "i"]) (deck I) r p) c.pos := by
    intro c hcm
    obtain ⟨n, hn, pop, hpop, e1, e2⟩ := hmem c hcm
    rw [hkind, hnp] at e2
    rw [hpops] at hpop
    refine ⟨by rw [e2]; split_ifs; omega, fun d => ?_⟩
    have hd := (mem_cells _ _).1 hn d
    have h0 : (0 : ℝ) ≤ n d := by exact_mod_cast hd.1
    have h1 : (n d : ℝ) + 1 ≤ S.c.ldims d := by exact_mod_cast hd.2
    have hx := hF.dx d
    rw [e1]
    unfold posOf
    show _ ∧ _ < _ + (S.c.ldims d : ℝ) * S.P.dx d
    constructor
    · have := mul_nonneg h0 hx.le; linarith
    · have := mul_lt_mul_of_pos_right (show (n d : ℝ) < S.c.ldims d by linarith) hx; linarith
  obtain ⟨l, hl, hkey⟩ := injectCalls_spec (G := gridOf S ["e", "i"]) hF.dx hF.pos R.mom calls
    ⟨xb (gridOf S ["e", "i"]) (deck I) r p, xe (gridOf S ["e", "i"]) (deck I) r p, []⟩
    (fun c hcm => ⟨(hin c hcm).1, (hin c hcm).2⟩) hxe
  dsimp only at hkey
  have hl' : setupPatch S I ppud (dv r p) R r p = some (l.map toPrt) := by
    unfold setupPatch
    dsimp only
    rw [hcs]
    simp only [Option.bind_eq_bind, Option.bind_some]
    rw [hl]
    simp
  refine ⟨l.map toPrt, hl', ?_, ?_⟩
  · intro q hq
    obtain ⟨a, ha, rfl⟩ := List.mem_map.1 hq
    have hka : key (xb (gridOf S ["e", "i"]) (deck I) r p) a ∈ l.map (key (xb (gridOf S ["e", "i"]) (deck I) r p)) := List.mem_map_of_mem ha
    rw [hkey] at hka
    obtain ⟨c, hcm, hka⟩ := List.mem_flatMap.1 hka
    have hka := List.eq_of_mem_replicate hka
    obtain ⟨k1, k3⟩ := hin c hcm
    have ek : a.kind = c.kind := congrArg (fun z => z.2.1) hka
    have ex : ∀ d, xb (gridOf S ["e", "i"]) (deck I) r p d + a.x d = c.pos d := fun d => congrFun (congrArg (fun z => z.1) hka) d
    refine ⟨by show a.kind < _; rw [ek]; exact k1, by show S.P.q a.kind ≠ 0; rw [ek]; exact hq2 _ k1, fun d => ?_⟩
    have k4 := k3 d
    have := ex d
    change _ ∧ _ < _ + (S.c.ldims d : ℝ) * S.P.dx d at k4
    show 0 ≤ a.x d ∧ a.x d < _
    constructor <;> linarith
  · intro g
    have e1 : ((l.map toPrt).map fun q => weight S.P q * g q.x q.kind) =
        (l.map (key (xb (gridOf S ["e", "i"]) (deck I) r p))).map fun z => z.2.2 / S.P.q z.2.1 *
          g (fun d => z.1 d - xb (gridOf S ["e", "i"]) (deck I) r p d) z.2.1 := by
      rw [List.map_map, List.map_map]
      refine List.map_congr_left fun a _ => ?_
      simp only [Function.comp, key, toPrt, weight]
      congr 2
      funext d
      ring
    rw [e1, hkey]
    have e2 := hsum fun y k => g (fun d => y d - xb (gridOf S ["e", "i"]) (deck I) r p d) k
    have e3 : ((calls.flatMap fun c => List.replicate c.n_in_cell.toNat (c.pos, c.kind, c.weight * (gridOf S ["e", "i"]).P.q c.kind)).map
        fun z => z.2.2 / S.P.q z.2.1 * g (fun d => z.1 d - xb (gridOf S ["e", "i"]) (deck I) r p d) z.2.1).sum =
        (calls.map fun c => (c.n_in_cell.toNat : ℝ) * c.weight * g (fun d => c.pos d - xb (gridOf S ["e", "i"]) (deck I) r p d) c.kind).sum := by
      have hq : ∀ c ∈ calls, S.P.q c.kind ≠ 0 := fun c hcm => hq2 _ (hin c hcm).1
      clear hsum hin hkey hcs hmem e2 hl
      induction calls with
      | nil => rfl
      | cons c cs ih =>
        rw [List.flatMap_cons, List.map_append, List.sum_append, ih fun c' hc' => hq c' (by simp [hc']), List.map_cons, List.sum_cons,
          List.map_replicate, List.sum_replicate, nsmul_eq_mul]
        dsimp only
        have : (gridOf S ["e", "i"]).P = S.P := rfl
        rw [this, mul_div_cancel_right₀ _ (hq c (by simp)), mul_assoc]
    rw [e3, e2]
    refine Finset.sum_congr rfl fun n _ => Finset.sum_congr rfl fun pop _ => ?_
    congr 2
    funext d
    unfold posOf
    ring

/-! ### charge -/

/-- a particle at node `m` gives all to it -/
theorem share_at {C : Code} (hC : C = .nc1_xyz ∨ C = .nc1_yz) (y : R3 ℝ) (m n : I3) (hy : ∀ d, C.act d = true → y d = m d)
    (hm : ∀ d, C.act d = false → m d = 0) : C.share y n = if n = m then 1 else 0 := by
  have hd : ∀ d, (if C.act d then tent (y d - (n d : ℝ)) else if n d = 0 then (1 : ℝ) else 0) = if n d = m d then 1 else 0 := by
    intro d
    cases hc : C.act d with
    | true => rw [if_pos rfl, hy d hc, tent_int]
    | false => simp [hm d hc]
  have e : C.share y n = tentRho C.act 1 y (n 0) (n 1) (n 2) := by
    rcases hC with rfl | rfl <;> rfl
  rw [e]
  unfold tentRho
  beta_reduce
  rw [hd 0, hd 1, hd 2]
  by_cases h : n = m
  · simp [h]
  · rw [if_neg h]
    have : ¬ (n 0 = m 0 ∧ n 1 = m 1 ∧ n 2 = m 2) := by
      rintro ⟨a, b, c⟩
      exact h (funext fun d => by fin_cases d <;> assumption)
    by_cases h0 : n 0 = m 0 <;> by_cases h1 : n 1 = m 1 <;> by_cases h2 : n 2 = m 2 <;> simp_all

theorem rho_start (hI : I.Fits S) (hF : Pic.Fit S 2) (hc : Pic.Scheme S) (ppud : ℝ) {prts : ℕ → ℕ → List Push.Prt}
    (hp : ∀ r p, S.c.D.Has r p → ∀ q ∈ prts r p, q.kind < 2 ∧ S.P.q q.kind ≠ 0 ∧ ∀ d, 0 ≤ q.x d ∧ q.x d < S.c.ldims d * S.P.dx d)
    (hs : ∀ r p, S.c.D.Has r p → ∀ g : R3 ℝ → ℕ → ℝ, ((prts r p).map fun q => weight S.P q * g q.x q.kind).sum =
        ∑ n ∈ ownedCells S.c, ∑ pop ∈ Finset.range 2, asks S I (fun d => S.c.off r p d + n d) pop * ppud *
          g (fun d => n d * S.P.dx d) pop)
    {x : I3} (hx : ∀ d, 0 ≤ x d ∧ x d < S.c.gdims d) :
    Pic.rhoG S prts x = S.P.fnqs * ppud * divE S.g.act S.P.dx (field S I) x := by
  obtain ⟨C, hC, hdep, ha⟩ := code_of hc
  have hS := hc.sound hF
  have hwx : wrap S.c x = x := by
    funext d
    have := hx d
    unfold wrap
    split_ifs
    · exact Int.emod_eq_of_lt this.1 this.2
    · rfl
  have e0 : Pic.rhoG S prts x = total S.c (fun r p => Pic.depOf (Push.rho S.dep S.P (prts r p))) 0 x :=
    (Pic.total_depOf (c := S.c) (L := fun r p => Push.rho S.dep S.P (prts r p))
      (fun r p hh => hS.rstor _ fun q hq => (hp r p hh q hq).2.2) 0 x).symm
  rw [e0]
  unfold total
  rw [hwx]
  have e1 : ∀ rp ∈ patches S.c.D, (∑ n ∈ storedCells S.c, if phys S.c rp.1 rp.2 n = x then
      Pic.depOf (Push.rho S.dep S.P (prts rp.1 rp.2)) (0, n) else 0) =
      ∑ n ∈ ownedCells S.c, if (fun d => S.c.off rp.1 rp.2 d + n d) = x then S.P.fnqs * ppud * divE S.g.act S.P.dx (field S I) x else 0 := by
    rintro ⟨r, p⟩ hrp
    have hh := mem_patches.1 hrp
    dsimp only at hh ⊢
    have e2 : ∀ n, Pic.depOf (Push.rho S.dep S.P (prts r p)) (0, n) =
        ∑ m ∈ ownedCells S.c, if n = m then S.P.fnqs * ppud * divE S.g.act S.P.dx (field S I) (fun d => S.c.off r p d + m d) else 0 := by
      intro n
      rw [hdep, rho_share hC S.P _ (fun q hq => (hp r p hh q hq).2.1) n,
        hs r p hh fun y k => S.P.fnqs * S.P.q k * C.share (fun d => y d / S.P.dx d) n]
      refine Finset.sum_congr rfl fun m hm => ?_
      have hm := mem_owned.1 hm
      have hsh : C.share (fun d => (m d : ℝ) * S.P.dx d / S.P.dx d) n = if n = m then 1 else 0 := by
        refine share_at hC _ m n (fun d _ => mul_div_cancel_right₀ _ (hF.dx d).ne') fun d hd => ?_
        have h1 := hm d
        have h3 := hF.inv d (by rw [ha] at hd; simpa using hd)
        omega
      simp only [hsh, Finset.sum_range_succ, Finset.sum_range_zero, zero_add]
      split_ifs
      · unfold asks
        rw [if_pos rfl, if_neg (by norm_num), hI.q_e, hI.q_i]
        unfold electrons
        rw [show ∀ a b c d e : ℝ, (a / b) * c * (d * b * 1) + e = a * (b / b) * (c * d) + e from fun a b c d e => by ring,
          div_self hI.q_e0]
        ring
      · ring
    simp only [e2]
    rw [show (∑ n ∈ storedCells S.c, if phys S.c r p n = x then ∑ m ∈ ownedCells S.c, (if n = m then
        S.P.fnqs * ppud * divE S.g.act S.P.dx (field S I) (fun d => S.c.off r p d + m d) else 0) else 0) =
        ∑ n ∈ storedCells S.c, ∑ m ∈ ownedCells S.c, if n = m then (if phys S.c r p m = x then
          S.P.fnqs * ppud * divE S.g.act S.P.dx (field S I) (fun d => S.c.off r p d + m d) else 0) else 0 from
      Finset.sum_congr rfl fun n _ => by
        by_cases h : phys S.c r p n = x
        · rw [if_pos h]
          refine Finset.sum_congr rfl fun m _ => ?_
          by_cases hnm : n = m
          · rw [if_pos hnm, if_pos hnm, ← hnm, if_pos h]
          · rw [if_neg hnm, if_neg hnm]
        · rw [if_neg h]
          symm
          refine Finset.sum_eq_zero fun m _ => ?_
          by_cases hnm : n = m
          · rw [if_pos hnm, ← hnm, if_neg h]
          · rw [if_neg hnm]]
    rw [Finset.sum_comm]
    refine Finset.sum_congr rfl fun m hm => ?_
    have hmi := mem_owned.1 hm
    rw [Finset.sum_eq_single m]
    · rw [if_pos rfl]
      have : phys S.c r p m = fun d => S.c.off r p d + m d := SetupFields.wrap_interior hF.valid hh hmi
      rw [this]
      by_cases h : (fun d => S.c.off r p d + m d) = x
      · rw [if_pos h, if_pos h, h]
      · rw [if_neg h, if_neg h]
    · intro n _ hn
      rw [if_neg hn]
    · intro h
      exact absurd (mem_stored.2 (interior_stored hF.valid hmi)) h
  rw [Finset.sum_congr rfl e1]
  refine (sumCells_global hF.valid hF.pos fun y => if y = x then S.P.fnqs * ppud * divE S.g.act S.P.dx (field S I) x else 0).trans ?_
  rw [Finset.sum_ite_eq' (globalCells S.c) x, if_pos (mem_globalCells.2 hx)]

/-! ### the start -/

/-- the magnetic field on the faces, continued periodically -/
def magnetic (S : Pic.Setup) (I : In) : VF ℝ := fun e x => fieldFunc I (HX + e) (SetupFields.face ⟨S.P.dx, corner I⟩ e (S.problem.wrapI x))

theorem start_spec (hI : I.Fits S) (hF : Pic.Fit S 2) (hc : Pic.Scheme S) {w : ℤ} (hg : SetupFields.Ghosts S.c w) (ppud : ℝ)
    (R : ℕ → ℕ → Random) :
    ∃ s rho, start S I ppud R = some s ∧ Pic.PrtsInside S s.prts ∧ Pic.PrtsCharged S s.prts ∧ Pic.FieldsAgree S s.flds ∧
      (∀ d : Fin 3, Holds S.c s.flds (EX + d) (field S I d)) ∧ (∀ d : Fin 3, Holds S.c s.flds (HX + d) (magnetic S I d)) ∧
      Pic.itemRho S s.prts = some rho ∧
      (∀ r p, S.c.D.Has r p → ∀ n, Interior S.c n →
        rho r p (0, n) = S.P.fnqs * ppud * divE S.g.act S.P.dx (field S I) fun d => S.c.off r p d + n d) ∧
      ∀ r p, S.c.D.Has r p → (∀ q ∈ s.prts r p, q.kind < 2) ∧ ∀ g : R3 ℝ → ℕ → ℝ,
        ((s.prts r p).map fun q => weight S.P q * g q.x q.kind).sum =
        ∑ n ∈ ownedCells S.c, ∑ pop ∈ Finset.range 2, asks S I (fun d => S.c.off r p d + n d) pop * ppud *
          g (fun d => n d * S.P.dx d) pop := by
  have h := hF.fits (le_refl 2)
  obtain ⟨ph, gr, h1, h2, hgr⟩ := grad_spec hI hF hc hg
  obtain ⟨dv, h3, hdv⟩ := div_spec hF hgr
  have hsp := fun r p hp => setupPatch_spec hI hF hc ppud (dv := dv) (r := r) (p := p) hp (hdv r p hp) (R r p)
  have hget : ∀ r p, S.c.D.Has r p → setupPatch S I ppud (dv r p) (R r p) r p = some ((setupPatch S I ppud (dv r p) (R r p) r p).getD []) := by
    intro r p hp
    obtain ⟨l, hl, -⟩ := hsp r p hp
    rw [hl]; rfl
  set prts : ℕ → ℕ → List Push.Prt := fun r p => (setupPatch S I ppud (dv r p) (R r p) r p).getD [] with hprts
  have hpr : ∀ r p, S.c.D.Has r p → ∀ q ∈ prts r p, q.kind < 2 ∧ S.P.q q.kind ≠ 0 ∧ ∀ d, 0 ≤ q.x d ∧ q.x d < S.c.ldims d * S.P.dx d := by
    intro r p hp
    obtain ⟨l, hl, h1, -⟩ := hsp r p hp
    simp only [hprts, hl, Option.getD_some]
    exact h1
  have hsum : ∀ r p, S.c.D.Has r p → ∀ g : R3 ℝ → ℕ → ℝ, ((prts r p).map fun q => weight S.P q * g q.x q.kind).sum =
        ∑ n ∈ ownedCells S.c, ∑ pop ∈ Finset.range 2, asks S I (fun d => S.c.off r p d + n d) pop * ppud *
          g (fun d => n d * S.P.dx d) pop := by
    intro r p hp
    obtain ⟨l, hl, -, h2⟩ := hsp r p hp
    simp only [hprts, hl, Option.getD_some]
    exact h2
  have hin : Pic.PrtsInside S prts := fun r p hp q hq => (hpr r p hp q hq).2.2
  obtain ⟨σ, e0, hs, -⟩ := SetupFields.setupFields_spec S.c w hg ⟨S.P.dx, corner I⟩ (fieldFunc I) SetupFields.fresh
  set σ' : Glob ℝ := fun r p mn => if EX ≤ mn.1 ∧ mn.1 < EX + 3 then -gr r p (mn.1 - EX, mn.2) else σ r p mn with hσ'
  have hf : initializeFields S I gr = some σ' := by
    unfold initializeFields
    rw [e0]; rfl
  obtain ⟨σ1, e1, a1, b1⟩ := fillAll_spec h HX (HX + 3) (by omega) σ'
  obtain ⟨σ2, e2, a2, b2⟩ := fillAll_spec h JXI (JXI + 3) (by omega) σ1
  obtain ⟨σ3, e3, a3, b3⟩ := fillAll_spec h EX (EX + 3) (by omega) σ2
  have hE : ∀ d : Fin 3, Holds S.c σ3 (EX + d) (field S I d) := by
    intro d
    refine a3 _ _ (by omega) (by omega) (field_per d) fun r p hp n hn => ?_
    rw [b2 _ (by unfold EX JXI; omega) r p hp, b1 _ (by unfold EX HX; omega) r p hp, hσ']
    have hd : EX ≤ EX + (d : ℕ) ∧ EX + (d : ℕ) < EX + 3 := by omega
    simp only [if_pos hd, Nat.add_sub_cancel_left, hgr d r p hp n (interior_stored h.ok hn), neg_neg]
  have pH : ∀ d, Periodic S.c (magnetic S I d) := fun d x y hxy => by
    have : S.problem.wrapI x = S.problem.wrapI y := hxy
    unfold magnetic
    rw [this]
  have hH : ∀ d : Fin 3, Holds S.c σ3 (HX + d) (magnetic S I d) := by
    intro d r p hp n hn
    rw [b3 _ (by unfold EX HX; omega) r p hp, b2 _ (by unfold HX JXI; omega) r p hp]
    refine a1 _ _ (by omega) (by omega) (pH d) (fun r p hp n hn => ?_) r p hp n hn
    have hd : ¬ (EX ≤ HX + (d : ℕ) ∧ HX + (d : ℕ) < EX + 3) := by unfold EX HX; omega
    have hw : S.problem.wrapI (fun d => S.c.off r p d + n d) = fun d => S.c.off r p d + n d := SetupFields.wrap_interior hF.valid hp hn
    simp only [hσ', if_neg hd, (hs r p hp n (interior_stored h.ok hn) d).1, magnetic, hw, SetupFields.fresh, zero_add]
  obtain ⟨ρ, hr, hown⟩ := Pic.itemRho_spec h (hc.sound hF) hin
  refine ⟨⟨prts, σ3⟩, ρ, ?_, hin, fun r p hp q hq => (hpr r p hp q hq).2.1, Pic.FieldsAgree.mk field_per pH hE hH, hE, hH, hr, ?_, ?_⟩
  · unfold start
    rw [h1]
    simp only [Option.bind_eq_bind, Option.bind_some]
    rw [h2]
    simp only [Option.bind_some]
    rw [h3]
    simp only [Option.bind_some]
    rw [if_pos, hf]
    · simp only [Option.bind_some, SetupFields.pre_first_step, e1, e2, e3, Option.bind_eq_bind]
      rfl
    · intro r hr p hp
      rw [hget r p ⟨List.mem_range.1 hr, List.mem_range.1 hp⟩]
      rfl
  · intro r p hp n hn
    rw [hown r p hp n hn, rho_start hI hF hc ppud hpr hsum (x := fun d => S.c.off r p d + n d) (interior_range hF hc hp hn)]
  · exact fun r p hp => ⟨fun q hq => (hpr r p hp q hq).1, hsum r p hp⟩

end

end Psc.Bgk
