import Verif.Lemmas.CudaPicBase
import Verif.Props.CudaDeposit

/-! Lemmas for runs on the GPU: the particle push -/

namespace Psc.CudaPic

open Domain Ddc FieldStep Cuda CudaFlds CudaBnd Spec.CudaFlds Spec.CudaBnd Spec.CudaPic

variable {X : Setup} {C : Call → Prop}

/-- a stored particle as a particle of the CPU -/
def ofSto (q : CudaPrts.Sto ℝ) : Push.Prt := ⟨q.x, q.u, q.qni_wni, q.kind⟩

/-! ## one particle -/

theorem fld_eq (hX : Fits X C) {r : ℕ} {S : RankState ℝ} {M : List ℝ} (hM : Stores (X.lay r) S M)
    {F : Block → Interp.Fld ℝ} (hF : Loaded X r (zeroJ (X.lay r) M) F) {b : Block} (hb : b ∈ blocks X r) (m : Fin 6)
    (i j k : ℤ) (i0 : (b.ci0 0 : ℤ) - 2 ≤ i) (i1 : i < b.ci0 0 + X.bs 0 + 2) (j0 : (b.ci0 1 : ℤ) - 2 ≤ j)
    (j1 : j < b.ci0 1 + X.bs 1 + 2) (k0 : (b.ci0 2 : ℤ) - 2 ≤ k) (k1 : k < b.ci0 2 + X.bs 2 + 2) :
    F b m i j k = Pic.emOf (S b.p) m i j k := by
  obtain ⟨hp, hc⟩ := block_bounds hX hb
  have h := hF b hb m ![i, j, k] (by intro d; fin_cases d <;> [exact ⟨i0, i1⟩; exact ⟨j0, j1⟩; exact ⟨k0, k1⟩])
  unfold source at h
  rw [valAt_stores (zeroJ_stores hM)] at h
  · rw [Option.some.injEq, if_neg (by simp [EX, JXI])] at h
    exact h.symm
  · refine ⟨fun d => ?_, ?_, hp⟩
    · have h0 := hc 0; have h1 := hc 1; have h2 := hc 2
      show -X.S.c.ibn d ≤ _ ∧ _ < X.S.c.ldims d + X.S.c.ibn d
      rw [hX.ibn d]
      fin_cases d
      · show -2 ≤ i ∧ i < X.S.c.ldims 0 + 2
        omega
      · show -2 ≤ j ∧ j < X.S.c.ldims 1 + 2
        omega
      · show -2 ≤ k ∧ k < X.S.c.ldims 2 + 2
        omega
    · show EX + (m : ℕ) < 9
      have := m.isLt
      unfold EX
      omega

theorem move_eq (hX : Fits X C) {r : ℕ} {S : RankState ℝ} {M : List ℝ} (hM : Stores (X.lay r) S M)
    {F : Block → Interp.Fld ℝ} (hF : Loaded X r (zeroJ (X.lay r) M) F) {b : Block} (hb : b ∈ blocks X r)
    {q : CudaPrts.Sto ℝ} (hq : CudaPrts.InBlock (X.env r) b q.x) :
    move X.S.P (F b) q = move X.S.P (Pic.emOf (S b.p)) q := by
  have hE := fld_eq hX hM hF hb
  have hl : ∀ d, (b.ci0 d : ℤ) ≤ ⌊q.x d * (1 / X.S.P.dx d)⌋ ∧ ⌊q.x d * (1 / X.S.P.dx d)⌋ < b.ci0 d + X.bs d := fun d =>
    ⟨Int.le_floor.2 (by exact_mod_cast (hq d).1), Int.floor_lt.2 (by exact_mod_cast (hq d).2)⟩
  have h0 := hl 0; have h1 := hl 1; have h2 := hl 2
  have e : Interp.interp_ec_xyz (fun d => q.x d * (1 / X.S.P.dx d)) (F b) =
      Interp.interp_ec_xyz (fun d => q.x d * (1 / X.S.P.dx d)) (Pic.emOf (S b.p)) := by
    unfold Interp.interp_ec_xyz Interp.ec_xyz Interp.C1.set
    dsimp only
    simp (disch := omega) only [hE]
  unfold move
  dsimp only
  rw [e]

theorem move_fst (P : Push.Params) (F : Interp.Fld ℝ) (q : CudaPrts.Sto ℝ) :
    (move P F q).1 = sto (Push.pushOne Push.cfgSplit_xyz P F (ofSto q)).1 := rfl

theorem push_snd (P : Push.Params) (F : Interp.Fld ℝ) (q : CudaPrts.Sto ℝ) :
    (Push.pushOne Push.cfgSplit_xyz P F (ofSto q)).2 = Current1vb.split_xyz P.fnqs P.dt P.dx q.qni_wni
      (Push.calc_v (move P F q).1.u) (move P F q).2.1 (move P F q).2.2 := by
  unfold Push.pushOne Push.cfgSplit_xyz move ofSto
  dsimp only

theorem move_xm (P : Push.Params) (F : Interp.Fld ℝ) (q : CudaPrts.Sto ℝ) (d : Fin 3) :
    (move P F q).2.1 d = q.x d * (1 / P.dx d) := rfl

theorem move_short (hX : Fits X C) (F : Interp.Fld ℝ) (q : CudaPrts.Sto ℝ) :
    Spec.OneCellMove Spec.xyz (move X.S.P F q).2.1 (move X.S.P F q).2.2 := by
  refine Props.oneCell_of_short fun d _ => ?_
  have hinv : X.S.cfg.inv d = false := by rw [hX.cfg]; fin_cases d <;> rfl
  have hd := hX.fit.dx d
  have hdt := hX.fit.dt
  have hc := (hX.fit.act d hinv).2.2.2.2
  have hv := abs_lt.1 (Push.calc_v_lt (move X.S.P F q).1.u d)
  have hx : (move X.S.P F q).1.x d = q.x d + 1 * X.S.P.dt * Push.calc_v (move X.S.P F q).1.u d := by
    show Push.push_x _ _ _ _ d = _
    unfold Push.push_x
    rw [if_neg (by fin_cases d <;> simp)]
    rfl
  have e : (move X.S.P F q).2.2 d - (move X.S.P F q).2.1 d =
      X.S.P.dt * Push.calc_v (move X.S.P F q).1.u d / X.S.P.dx d := by
    show (move X.S.P F q).1.x d * (1 / X.S.P.dx d) - q.x d * (1 / X.S.P.dx d) = _
    rw [hx]
    ring
  rw [e, abs_div, abs_of_pos hd, div_lt_one hd, abs_mul, abs_of_pos hdt]
  have : |Push.calc_v (move X.S.P F q).1.u d| < 1 := abs_lt.2 hv
  nlinarith

theorem adds_eq (hX : Fits X C) {r : ℕ} {S : RankState ℝ} {M : List ℝ} (hM : Stores (X.lay r) S M)
    {F : Block → Interp.Fld ℝ} (hF : Loaded X r (zeroJ (X.lay r) M) F) {b : Block} (hb : b ∈ blocks X r)
    {q : CudaPrts.Sto ℝ} (hq : CudaPrts.InBlock (X.env r) b q.x) :
    ∃ l : List (Add ℝ),
      adds X r F b q = some (l.map fun a => (place (X.lay r) b.p (JXI + a.m, ![a.i, a.j, a.k]), a.v)) ∧
      fieldOf l = fieldOf (Push.pushOne Push.cfgSplit_xyz X.S.P (Pic.emOf (S b.p)) (ofSto q)).2 ∧
      ∀ a ∈ l, Has (X.lay r) b.p (JXI + a.m, ![a.i, a.j, a.k]) := by
  obtain ⟨hp, hc⟩ := block_bounds hX hb
  have hs := move_short hX (Pic.emOf (S b.p)) q
  have hin : ∀ d, 0 ≤ (move X.S.P (Pic.emOf (S b.p)) q).2.1 d ∧
      (move X.S.P (Pic.emOf (S b.p)) q).2.1 d < (X.S.c.ldims d : ℝ) := by
    intro d
    rw [move_xm]
    obtain ⟨a1, a2⟩ := hq d
    refine ⟨le_trans (by positivity) a1, lt_of_lt_of_le a2 ?_⟩
    exact_mod_cast hc d
  rw [push_snd]
  unfold adds
  dsimp only
  rw [move_eq hX hM hF hb hq]
  generalize move X.S.P (Pic.emOf (S b.p)) q = mv at hs hin ⊢
  obtain ⟨l, h1, h2⟩ := Props.C69_xyz_same X.S.P.fnqs X.S.P.dt X.S.P.dx q.qni_wni (Push.calc_v mv.1.u) mv.2.1 mv.2.2
    (fun d => (b.ci0 d : ℤ)) hs X.fuel hX.fuel
  refine ⟨l, ?_, h2, fun a ha => ?_⟩
  · rw [h1, Option.map_some]
  · have := Props.C69_xyz_inside X.S.P.fnqs X.S.P.dt X.S.P.dx q.qni_wni mv.2.1 mv.2.2 (fun d => (b.ci0 d : ℤ)) X.S.c.ldims hs
      hin X.fuel l hX.fuel h1 a ha
    refine ⟨fun d => ?_, ?_, hp⟩
    · show -X.S.c.ibn d ≤ _ ∧ _ < X.S.c.ldims d + X.S.c.ibn d
      rw [hX.ibn d]
      fin_cases d
      · show -2 ≤ a.i ∧ a.i < X.S.c.ldims 0 + 2
        omega
      · show -2 ≤ a.j ∧ a.j < X.S.c.ldims 1 + 2
        omega
      · show -2 ≤ a.k ∧ a.k < X.S.c.ldims 2 + 2
        omega
    · show 0 + (a.m : ℕ) < 9
      have := a.m.isLt
      omega

/-! ## all particles -/

/-- an addition to a component of the current of patch `p` -/
def toZ (L : Layout) (p : ℕ) (a : Add ℝ) : ℤ × ℝ := (place L p (JXI + a.m, ![a.i, a.j, a.k]), a.v)

/-- what a particle of patch `p` becomes -/
noncomputable def mvOf (X : Setup) (S : RankState ℝ) (p : ℕ) (q : CudaPrts.Sto ℝ) : CudaPrts.Sto ℝ :=
  sto (Push.pushOne Push.cfgSplit_xyz X.S.P (Pic.emOf (S p)) (ofSto q)).1

theorem push_congr {e : CudaPrts.Env ℝ} {mv mv' : Block → CudaPrts.Sto ℝ → CudaPrts.Sto ℝ} {work : List (Block × ℕ)}
    (h : ∀ w ∈ work, ∀ q, mv w.1 q = mv' w.1 q) (s : CudaPrts.State ℝ) :
    CudaPrts.push e mv work s = CudaPrts.push e mv' work s := by
  unfold CudaPrts.push
  have h1 : ∀ s, work.foldlM (CudaPrts.pushOne e mv) s = work.foldlM (CudaPrts.pushOne e mv') s := fun s =>
    CudaPrts.foldlM_congr' (fun w hw s => by unfold CudaPrts.pushOne; simp only [h w hw]) s
  have h2 : ∀ s, work.foldlM (CudaPrts.pushOneReorder e mv) s = work.foldlM (CudaPrts.pushOneReorder e mv') s := fun s =>
    CudaPrts.foldlM_congr' (fun w hw s => by unfold CudaPrts.pushOneReorder; simp only [h w hw]) s
  rw [h1]
  simp only [h2]

theorem allowed_push (hX : Fits X C) {r : ℕ} {a : CudaPrts.Abs ℝ} (hph : a.ph ≠ .pushed) (mv : ℕ → CudaPrts.Sto ℝ → CudaPrts.Sto ℝ) :
    CudaPrts.Allowed (X.env r) a (.push mv) := ⟨hph, fun h => absurd h (gdimX_ne hX r)⟩

open Classical in
theorem kernel_ok (hX : Fits X C) {r : ℕ} {s : CudaPrts.State ℝ} {a : CudaPrts.Abs ℝ} (hs : Reach (X.env r) s a)
    (hph : a.ph ≠ .pushed) {S : RankState ℝ} {M : List ℝ} (hM : Stores (X.lay r) S M)
    {F : Block → Interp.Fld ℝ} (hF : Loaded X r (zeroJ (X.lay r) M) F) {work : List (Block × ℕ)}
    (hw : CudaPrts.IsWork (X.env r) s work) :
    ∃ (s' : CudaPrts.State ℝ) (l : List (Block × CudaPrts.Sto ℝ)) (A : Block × CudaPrts.Sto ℝ → List (Add ℝ)),
      kernel X r F work s = some (s', l.flatMap fun w => (A w).map (toZ (X.lay r) w.1.p)) ∧
      Reach (X.env r) s' (CudaPrts.after (X.env r) a (.push (mvOf X S))) ∧
      (∀ p < X.S.c.D.nr_patches r, ((l.filter fun w => w.1.p = p).map Prod.snd : Multiset (CudaPrts.Sto ℝ)) = a.c p) ∧
      (∀ w ∈ l, fieldOf (A w) = fieldOf (Push.pushOne Push.cfgSplit_xyz X.S.P (Pic.emOf (S w.1.p)) (ofSto w.2)).2) ∧
      ∀ w ∈ l, ∀ x ∈ A w, Has (X.lay r) w.1.p (JXI + x.m, ![x.i, x.j, x.k]) := by
  have ha := allowed_push hX (r := r) hph (mvOf X S)
  obtain ⟨-, g2, g3⟩ := CudaPrts.good_push (env_ok hX r) (Reach.rel (env_ok hX r) hs) ha
  set kmv : Block → CudaPrts.Sto ℝ → CudaPrts.Sto ℝ := fun b q => (move X.S.P (F b) q).1 with hkmv
  set kmv' : Block → CudaPrts.Sto ℝ → CudaPrts.Sto ℝ := fun b q => if b ∈ blocks X r then kmv b q else mvOf X S b.p q with hkmv'
  have hk : ∀ b q, CudaPrts.InBlock (X.env r) b q.x → kmv' b q = mvOf X S b.p q := by
    intro b q hq
    rw [hkmv']
    by_cases hb : b ∈ blocks X r
    · simp only [hb, if_true]
      rw [hkmv]
      dsimp only
      rw [move_eq hX hM hF hb hq, move_fst]
      rfl
    · simp only [hb, if_false]
  have hpush : CudaPrts.push (X.env r) kmv work s = CudaPrts.push (X.env r) kmv' work s :=
    push_congr (fun w hw' q => by rw [hkmv']; simp only [work_block hw hw', if_true]) s
  have hsome : ∀ w ∈ work, ∃ q, CudaPrts.pushed s w.2 = some q := fun w hw' => by
    cases e : CudaPrts.pushed s w.2 with
    | none => exact absurd (.push kmv' work hw hk (.inr ⟨w, hw', e⟩)) g2
    | some q => exact ⟨q, rfl⟩
  cases e : CudaPrts.push (X.env r) kmv' work s with
  | none => exact absurd (.push kmv' work hw hk (.inl e)) g2
  | some s' =>
    set Q : Block × ℕ → CudaPrts.Sto ℝ := fun w => (CudaPrts.pushed s w.2).getD default with hQ
    have hQ' : ∀ w ∈ work, CudaPrts.pushed s w.2 = some (Q w) := fun w hw' => by
      obtain ⟨q, h⟩ := hsome w hw'
      rw [hQ]
      dsimp only
      rw [h, Option.getD_some]
    have hl : work.mapM (fun w => (CudaPrts.pushed s w.2).map fun q => (w.1, q)) = some (work.map fun w => (w.1, Q w)) :=
      CudaPrts.mapM_some fun w hw' => by rw [hQ' w hw']; rfl
    have hstep : CudaPrts.Step (X.env r) s (.push (mvOf X S)) (.work (work.map fun w => (w.1, Q w))) s' :=
      .push kmv' work hw hk e hl
    obtain ⟨⟨o1, -, o3⟩, -⟩ := g3 _ _ hstep
    have hA : ∀ w : Block × CudaPrts.Sto ℝ, ∃ A : List (Add ℝ), w ∈ work.map (fun w => (w.1, Q w)) →
        adds X r F w.1 w.2 = some (A.map (toZ (X.lay r) w.1.p)) ∧
        fieldOf A = fieldOf (Push.pushOne Push.cfgSplit_xyz X.S.P (Pic.emOf (S w.1.p)) (ofSto w.2)).2 ∧
        ∀ x ∈ A, Has (X.lay r) w.1.p (JXI + x.m, ![x.i, x.j, x.k]) := by
      intro w
      by_cases h : w ∈ work.map fun w => (w.1, Q w)
      · have hb : w.1 ∈ blocks X r := by
          obtain ⟨w', h', rfl⟩ := List.mem_map.1 h
          exact work_block hw h'
        obtain ⟨A, hA⟩ := adds_eq hX hM hF hb (o1 w h)
        exact ⟨A, fun _ => hA⟩
      · exact ⟨[], fun h' => absurd h' h⟩
    choose A hA using hA
    refine ⟨s', work.map fun w => (w.1, Q w), A, ?_, Reach.step hs ha hstep, fun p hp => ?_, fun w h => (hA w h).2.1,
      fun w h => (hA w h).2.2⟩
    · unfold kernel
      rw [CudaPrts.mapM_some (g := fun w => (A (w.1, Q w)).map (toZ (X.lay r) w.1.p)) fun w hw' => by
        rw [hQ' w hw']
        exact (hA (w.1, Q w) (List.mem_map.2 ⟨w, hw', rfl⟩)).1]
      rw [hpush, e, List.flatMap_map]
      simp only [Option.bind_eq_bind, Option.bind_some, List.flatMap_def]
      rfl
    · rw [← o3 p hp]

/-- the additions as events -/
def toEv (p : ℕ) (a : Add ℝ) : Ev ℝ := ⟨p, (JXI + a.m, ![a.i, a.j, a.k]), a.v⟩

/-- the state of the particles between push and exchange -/
def HasMoved (X : Setup) (r : ℕ) (s : CudaPrts.State ℝ) (prts : ℕ → List Push.Prt) : Prop :=
  ∃ a, Reach (X.env r) s a ∧ a.ph = .pushed ∧
    ∀ p < X.S.c.D.nr_patches r, a.c p = ((prts p).map sto : Multiset (CudaPrts.Sto ℝ))

theorem ofSto_sto (q : Push.Prt) : ofSto (sto q) = q := rfl

theorem atomicAdds_eq {X : Setup} {r : ℕ} {S : RankState ℝ} {M : List ℝ} (hM : Stores (X.lay r) S M) (l : List (Ev ℝ))
    (h : ∀ e ∈ l, Has (X.lay r) e.patch e.cell) :
    ∃ M', atomicAdds (l.map fun e => (place (X.lay r) e.patch e.cell, e.val)) M = some M' ∧
      Stores (X.lay r) (l.foldl (app fun old v => old + v) S) M' := by
  obtain ⟨M', h1, h2⟩ := scatter_eq (k := X.call true JXI (JXI + 3)) (rank := r) (fun old v : ℝ => old + v) l hM h
  refine ⟨M', ?_, h2⟩
  unfold atomicAdds
  rw [List.mapM_map, CudaPrts.mapM_some (g := toPair (X.call true JXI (JXI + 3)) r)]
  · exact h1
  · intro e he
    dsimp only [Function.comp]
    rw [place_eq (h e he)]
    unfold nat?
    rw [if_pos (Int.natCast_nonneg _)]
    rfl

theorem sum_toEv (p q : ℕ) (m : ℕ) (n : I3) (A : List (Add ℝ)) :
    (A.map fun a => if q = (toEv p a).patch ∧ (m, n) = (toEv p a).cell then (toEv p a).val else 0).sum =
      if q = p then Pic.depOf A (m, n) else 0 := by
  unfold Pic.depOf
  by_cases hq : q = p
  · rw [if_pos hq]
    dsimp only
    split_ifs with hm
    · unfold fieldOf
      congr 1
      refine List.map_congr_left fun a _ => ?_
      refine if_congr ?_ rfl rfl
      unfold toEv
      dsimp only
      rw [Prod.mk.injEq]
      constructor
      · rintro ⟨-, h1, h2⟩
        refine ⟨Fin.ext ?_, ?_⟩
        · simp only [JXI] at h1
          dsimp only
          omega
        · rw [h2]
          exact ⟨rfl, rfl, rfl⟩
      · rintro ⟨h1, h2, h3, h4⟩
        refine ⟨hq, ?_, ?_⟩
        · rw [h1]
          simp only [JXI]
          omega
        · rw [h2, h3, h4]
          funext d
          fin_cases d <;> rfl
    · refine List.sum_eq_zero fun x hx => ?_
      obtain ⟨a, -, rfl⟩ := List.mem_map.1 hx
      refine if_neg ?_
      rintro ⟨-, h⟩
      have := congrArg Prod.fst h
      unfold toEv at this
      simp only [JXI] at this
      have := a.m.isLt
      omega
  · rw [if_neg hq]
    refine List.sum_eq_zero fun x hx => ?_
    obtain ⟨a, -, rfl⟩ := List.mem_map.1 hx
    exact if_neg fun h => hq h.1

theorem depOf_flatMap {A : Type} (xs : List A) (f : A → List (Add ℝ)) (mn : ℕ × I3) :
    Pic.depOf (xs.flatMap f) mn = (xs.map fun x => Pic.depOf (f x) mn).sum := by
  unfold Pic.depOf
  split_ifs with h
  · exact Esirkepov.fieldOf_flatMap xs f _ _ _ _
  · simp

theorem sum_filter {α : Type} (l : List α) (P : α → Prop) [DecidablePred P] (f : α → ℝ) :
    (l.map fun w => if P w then f w else 0).sum = ((l.filter fun w => P w).map f).sum := by
  induction l with
  | nil => rfl
  | cons a l ih =>
    rw [List.map_cons, List.sum_cons, ih, List.filter_cons]
    by_cases h : P a <;> simp [h]

/-- what the events of all particles add up to -/
theorem sum_events (X : Setup) {S : RankState ℝ} {l : List (Block × CudaPrts.Sto ℝ)}
    {A : Block × CudaPrts.Sto ℝ → List (Add ℝ)} {prts : List Push.Prt} {p : ℕ}
    (hl : ((l.filter fun w => w.1.p = p).map Prod.snd : Multiset (CudaPrts.Sto ℝ)) = (prts.map sto : Multiset (CudaPrts.Sto ℝ)))
    (hA : ∀ w ∈ l, fieldOf (A w) = fieldOf (Push.pushOne Push.cfgSplit_xyz X.S.P (Pic.emOf (S w.1.p)) (ofSto w.2)).2)
    (mn : ℕ × I3) :
    ((l.flatMap fun w => (A w).map (toEv w.1.p)).map fun e => if p = e.patch ∧ mn = e.cell then e.val else 0).sum =
      Pic.depOf (Push.pushAll Push.cfgSplit_xyz X.S.P (Pic.emOf (S p)) prts).2 mn := by
  rw [Pic.pushAll_eq]
  dsimp only
  rw [depOf_flatMap]
  have h1 : ((l.flatMap fun w => (A w).map (toEv w.1.p)).map fun e => if p = e.patch ∧ mn = e.cell then e.val else 0).sum =
      (l.map fun w => if w.1.p = p then Pic.depOf (A w) mn else 0).sum := by
    clear hl hA
    induction l with
    | nil => rfl
    | cons w l ih =>
      rw [List.flatMap_cons, List.map_append, List.sum_append, ih, List.map_cons, List.sum_cons, List.map_map]
      congr 1
      refine (sum_toEv w.1.p p mn.1 mn.2 (A w)).trans ?_
      by_cases h : w.1.p = p
      · rw [if_pos h, if_pos h.symm]
      · rw [if_neg h, if_neg fun h' => h h'.symm]
  rw [h1, sum_filter]
  have h2 : (l.filter fun w => w.1.p = p).map (fun w => Pic.depOf (A w) mn) =
      ((l.filter fun w => w.1.p = p).map Prod.snd).map fun q =>
        Pic.depOf (Push.pushOne Push.cfgSplit_xyz X.S.P (Pic.emOf (S p)) (ofSto q)).2 mn := by
    rw [List.map_map]
    refine List.map_congr_left fun w hw => ?_
    obtain ⟨hw, hp⟩ := List.mem_filter.1 hw
    unfold Pic.depOf
    dsimp only [Function.comp]
    rw [hA w hw, of_decide_eq_true hp]
  rw [h2]
  have h3 := Multiset.coe_eq_coe.1 hl
  rw [(h3.map _).sum_eq, List.map_map]
  rfl

/-- The push on a rank that has particles. -/
theorem pushR_ok (hX : Fits X C) {r : ℕ} {s : Rank} {prts : ℕ → List Push.Prt} (hs : HasPrts X r s.prts prts) {S : RankState ℝ}
    (hM : Stores (X.lay r) S s.mem) (hn : ∃ p < X.S.c.D.nr_patches r, prts p ≠ []) :
    (∃ o, PushR X r s o) ∧ ∀ o, PushR X r s o → ∃ s', o = some s' ∧ s'.cache = s.cache ∧
      HasMoved X r s'.prts (fun p => (Push.pushAll X.S.cfg X.S.P (Pic.emOf (S p)) (prts p)).1) ∧
      Stores (X.lay r) (fun p mn => if mn.1 < JXI + 3 then
        Pic.depOf (Push.pushAll X.S.cfg X.S.P (Pic.emOf (S p)) (prts p)).2 mn else S p mn) s'.mem := by
  obtain ⟨a, hr, hph, hph2, ha⟩ := hs
  have hrel := Reach.rel (env_ok hX r) hr
  have hn0 : s.prts.n ≠ 0 := by
    intro h
    obtain ⟨p, hp, h'⟩ := hn
    have := (n_zero hrel).1 h p hp
    rw [ha p hp, Multiset.coe_eq_zero, List.map_eq_nil_iff] at this
    exact h' this
  have hZ := zeroJ_stores hM
  have hval : ∀ b ∈ blocks X r, ∀ m n, InTile X.bs b n →
      valAt (zeroJ (X.lay r) s.mem) (source X r b m n) = some (S b.p (EX + m, n)) := by
    intro b hb m n hn
    have hh : Has (X.lay r) b.p (EX + m, n) := by
      obtain ⟨h1, h2⟩ := block_bounds hX hb
      refine ⟨fun d => ?_, ?_, h1⟩
      · have := h2 d
        have := hn d
        have := hX.ibn d
        change -X.S.c.ibn d ≤ n d ∧ n d < X.S.c.ldims d + X.S.c.ibn d
        omega
      · change 3 + m.val < 9
        omega
    unfold source
    rw [valAt_stores hZ hh]
    rw [if_neg (by simp only [JXI, EX]; omega)]
  have hnl : ∀ b ∈ blocks X r, ∀ m n, InTile X.bs b n → valAt (zeroJ (X.lay r) s.mem) (source X r b m n) ≠ none :=
    fun b hb m n hn => by rw [hval b hb m n hn]; exact Option.some_ne_none _
  obtain ⟨B, hb, -⟩ := id hrel
  obtain ⟨w₀, hw1, hw2⟩ := CudaPrts.work_exists (e := X.env r) hb.off
  have key : ∀ o, PushR X r s o → ∃ s', o = some s' ∧ s'.cache = s.cache ∧
      HasMoved X r s'.prts (fun p => (Push.pushAll X.S.cfg X.S.P (Pic.emOf (S p)) (prts p)).1) ∧
      Stores (X.lay r) (fun p mn => if mn.1 < JXI + 3 then
        Pic.depOf (Push.pushAll X.S.cfg X.S.P (Pic.emOf (S p)) (prts p)).2 mn else S p mn) s'.mem := by
    intro o ho
    cases ho with
    | idle h => exact absurd h hn0
    | load h b hb m n hn hv => exact absurd hv (hnl b hb m n hn)
    | offsets h hw => rw [hw1] at hw; exact absurd hw (Option.some_ne_none _)
    | fail h F hF work hw hk =>
      obtain ⟨s', l, A, h1, -⟩ := kernel_ok hX hr hph hM hF hw
      rw [hk] at h1
      exact absurd h1.symm (Option.some_ne_none _)
    | run h F hF work hw q l₀ l' hk hl' =>
      obtain ⟨s', l, A, h1, h2, h3, h4, h5⟩ := kernel_ok hX hr hph hM hF hw
      rw [hk, Option.some.injEq, Prod.mk.injEq] at h1
      obtain ⟨rfl, rfl⟩ := h1
      have he : (l.flatMap fun w => (A w).map (toZ (X.lay r) w.1.p)) =
          (l.flatMap fun w => (A w).map (toEv w.1.p)).map fun e => (place (X.lay r) e.patch e.cell, e.val) := by
        rw [List.map_flatMap]
        simp only [List.map_map]
        rfl
      rw [he] at hl'
      obtain ⟨evs, hp, rfl⟩ := perm_map hl'
      have hev : ∀ e ∈ evs, Has (X.lay r) e.patch e.cell := by
        intro e he'
        obtain ⟨w, hw', he''⟩ := List.mem_flatMap.1 (hp.mem_iff.1 he')
        obtain ⟨x, hx, rfl⟩ := List.mem_map.1 he''
        exact h5 w hw' x hx
      obtain ⟨M', h6, h7⟩ := atomicAdds_eq hZ evs hev
      rw [h6]
      refine ⟨_, rfl, rfl, ⟨_, h2, ?_, fun p hp' => ?_⟩, ?_⟩
      · exact if_neg hph2
      · change (a.c p).map (mvOf X S p) = _
        rw [ha p hp', Multiset.map_coe, List.map_map]
        simp only [Pic.pushAll_eq, hX.cfg, List.map_map]
        rfl
      · refine ⟨h7.1, fun p hp' m hm n hn => ?_⟩
        rw [h7.2 p hp' m hm n hn]
        congr 1
        rw [foldl_add, (hp.map _).sum_eq, sum_events X ((h3 p hp').trans (ha p hp')) h4, hX.cfg]
        dsimp only
        split_ifs with hm3
        · rw [zero_add]
        · have : Pic.depOf (Push.pushAll Push.cfgSplit_xyz X.S.P (Pic.emOf (S p)) (prts p)).2 (m, fun d => (n d : ℤ) - (X.lay r).ibn d) = 0 := by
            unfold Pic.depOf
            exact dif_neg hm3
          rw [this, add_zero]
  refine ⟨?_, key⟩
  have hF : Loaded X r (zeroJ (X.lay r) s.mem) fun b m i j k => S b.p (EX + m, ![i, j, k]) := fun b hb m n hn => by
    rw [hval b hb m n hn]
    congr 3
    funext d
    fin_cases d <;> rfl
  have hw : CudaPrts.IsWork (X.env r) s.prts w₀ := ⟨w₀, hw1, List.Perm.refl _⟩
  obtain ⟨s', l, A, h1, -⟩ := kernel_ok hX hr hph hM hF hw
  exact ⟨_, .run s hn0 _ hF w₀ hw s' _ _ h1 (List.Perm.refl _)⟩

end Psc.CudaPic
