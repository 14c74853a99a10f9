import Verif.Lemmas.CudaFldsYz

/-!
# The Marder correction on the GPU
-/

namespace Psc.CudaFlds

open Fields FieldStep Spec.CudaFlds Ddc Spec.Yee Spec

variable {K : Type} [Field K]

theorem launch_dst_sub {L : Layout} {nx ny nz np m0 : ℕ} {body : ℕ → ℕ → ℕ → ℕ → List (Stmt K)}
    (hx : nx ≤ L.im 0) (hy : ny ≤ L.im 1) (hz : nz ≤ L.im 2) (hp : np ≤ L.np) (hm : m0 + 3 ≤ L.nc)
    (hb : ∀ i j k p, ((body i j k p).map Stmt.dst).Sublist
      [L.off i j k m0 p, L.off i j k (m0 + 1) p, L.off i j k (m0 + 2) p]) :
    (launch4 nx ny nz np body).Pairwise fun s t => s.dst ≠ t.dst := by
  have hmem : ∀ i j k p, ∀ s ∈ body i j k p, ∃ d < 3, s.dst = L.off i j k (m0 + d) p := by
    intro i j k p s hs
    have := (hb i j k p).subset (List.mem_map_of_mem (f := Stmt.dst) hs)
    simp only [List.mem_cons, List.not_mem_nil, or_false] at this
    rcases this with h | h | h
    · exact ⟨0, by omega, h⟩
    · exact ⟨1, by omega, h⟩
    · exact ⟨2, by omega, h⟩
  apply pairwise_launch4
  · intro i hi j hj k hk p hp'
    have hI : ∀ d < 3, In L ⟨i, j, k, m0 + d, p⟩ := fun d hd =>
      In.mk' (by omega) (by omega) (by omega) (by omega) (by omega)
    have : ((body i j k p).map Stmt.dst).Pairwise (· ≠ ·) := by
      refine List.Pairwise.sublist (hb i j k p) ?_
      simp only [List.pairwise_cons, List.mem_cons, List.not_mem_nil, or_false, forall_eq_or_imp, forall_eq,
        List.Pairwise.nil, and_true, IsEmpty.forall_iff, implies_true]
      exact ⟨⟨off_ne (hI 0 (by omega)) (hI 1 (by omega)) (by omega),
        off_ne (hI 0 (by omega)) (hI 2 (by omega)) (by omega)⟩,
        off_ne (hI 1 (by omega)) (hI 2 (by omega)) (by omega)⟩
    rwa [List.pairwise_map] at this
  · intro i hi j hj k hk p hp1 i' hi' j' hj' k' hk' p' hp2 hne s hs t ht
    obtain ⟨d, hd, e⟩ := hmem _ _ _ _ s hs
    obtain ⟨d', hd', e'⟩ := hmem _ _ _ _ t ht
    rw [e, e']
    refine off_ne (In.mk' (by omega) (by omega) (by omega) (by omega) (by omega))
      (In.mk' (by omega) (by omega) (by omega) (by omega) (by omega)) ?_
    rintro ⟨rfl, rfl, rfl, -, rfl⟩
    exact hne rfl

theorem flatten_launch (nx ny nz np : ℕ) (b : ℕ → ℕ → ℕ → ℕ → List (Stmt K)) :
    ((List.range np).map fun p => launch4 nx ny nz 1 fun i j k _ => b i j k p).flatten = launch4 nx ny nz np b := by
  simp [launch4, List.flatMap]

/-- where the correction changes `E` -/
def Inner (L : Layout) (n : I3) : Prop := ∀ d, 0 ≤ n d ∧ n d < L.ldims d

instance (L : Layout) (n : I3) : Decidable (Inner L n) := inferInstanceAs (Decidable (∀ _, _))

/-- `E` after the correction, where the difference for component `d` is taken along `dir d`, in the directions in `act` -/
def corrected (L : Layout) (act : Fin 3 → Bool) (fac : R3 K) (dir : Fin 3 → Fin 3) (S Sr : RankState K) : RankState K :=
  fun p mn => if ∃ d : Fin 3, act d = true ∧ mn.1 = EX + d ∧ Inner L mn.2 then
      S p mn + fac (Fin.ofNat 3 (mn.1 - 3)) * (Sr p (0, shift mn.2 (dir (Fin.ofNat 3 (mn.1 - 3))) 1) - Sr p (0, mn.2))
    else S p mn

theorem corrected_E (L : Layout) (act : Fin 3 → Bool) (fac : R3 K) (dir : Fin 3 → Fin 3) (S Sr : RankState K) (p : ℕ)
    (d : Fin 3) (n : I3) :
    corrected L act fac dir S Sr p (EX + d, n) = S p (EX + d, n) +
      if act d = true ∧ Inner L n then fac d * (Sr p (0, shift n (dir d) 1) - Sr p (0, n)) else 0 := by
  unfold corrected
  dsimp only
  have e : Fin.ofNat 3 (EX + (d : ℕ) - 3) = d := by
    apply Fin.ext
    simp only [Fin.ofNat, EX]
    omega
  rw [e]
  by_cases h : act d = true ∧ Inner L n
  · rw [if_pos ⟨d, h.1, rfl, h.2⟩, if_pos h]
  · rw [if_neg, if_neg h, add_zero]
    rintro ⟨d', h1, h2, h3⟩
    obtain rfl : d = d' := Fin.ext (by omega)
    exact h ⟨h1, h3⟩

theorem corrected_rest (L : Layout) (act : Fin 3 → Bool) (fac : R3 K) (dir : Fin 3 → Fin 3) (S Sr : RankState K) (p m : ℕ)
    (hm : ∀ d : Fin 3, m ≠ EX + d) (n : I3) : corrected L act fac dir S Sr p (m, n) = S p (m, n) := by
  unfold corrected
  rw [if_neg]
  rintro ⟨d, -, h, -⟩
  exact hm d h

/-- the correction of the CPU, at an inner cell -/
theorem cpu_correct (g : GridP K) (L : Layout) (hl : L.ldims = g.ldims) (diff : K) (res σ : Glob K) (r p : ℕ) :
    FieldStep.correct g diff res σ r p =
      corrected L g.act (marderFac g diff) id (σ r) (res r) p := by
  funext mn
  obtain ⟨m, n⟩ := mn
  have hin : ∀ n : I3, (∀ e, 0 ≤ n e ∧ n e < g.ldims e) ↔ Inner L n := fun n => by rw [Inner, hl]
  have hsh : ∀ (n : I3) (d : Fin 3), (fun e => if e = d then n e + 1 else n e) = shift n d 1 := fun n d => rfl
  have step : ∀ (d : Fin 3) (F : PF K), (if g.inv d then F else fun mn =>
      if mn.1 = EX + d ∧ ∀ e, 0 ≤ mn.2 e ∧ mn.2 e < g.ldims e then
        F mn + (res r p (0, fun e => if e = d then mn.2 e + 1 else mn.2 e) - res r p (0, mn.2)) *
          (1/2 * g.dt * diff * (1 / g.dx d)) else F mn) =
      fun mn => F mn + if g.act d = true ∧ mn.1 = EX + d ∧ Inner L mn.2 then
        marderFac g diff d * (res r p (0, shift mn.2 d 1) - res r p (0, mn.2)) else 0 := by
    intro d F
    funext mn
    rw [GridP.act]
    cases hd : g.inv d
    · simp only [Bool.false_eq_true, if_false, Bool.not_false, true_and]
      by_cases hc : mn.1 = EX + d ∧ Inner L mn.2
      · rw [if_pos ⟨hc.1, (hin _).2 hc.2⟩, if_pos hc, hsh]
        unfold marderFac; ring
      · rw [if_neg (fun h => hc ⟨h.1, (hin _).1 h.2⟩), if_neg hc, add_zero]
    · simp
  unfold FieldStep.correct
  simp only
  rw [show List.finRange 3 = [0, 1, 2] from rfl]
  simp only [List.foldl_cons, List.foldl_nil]
  rw [step 0, step 1, step 2]
  by_cases hm : ∃ d : Fin 3, m = EX + d
  · obtain ⟨d, rfl⟩ := hm
    rw [corrected_E]
    fin_cases d <;> simp [EX]
  · rw [corrected_rest _ _ _ _ _ _ _ _ (fun d e => hm ⟨d, e⟩)]
    have := fun (d : Fin 3) (e : m = EX + d) => hm ⟨d, e⟩
    have h0 := this 0; have h1 := this 1; have h2 := this 2
    dsimp only
    rw [if_neg (fun h => h0 h.2.1), if_neg (fun h => h1 h.2.1), if_neg (fun h => h2 h.2.1)]
    simp

theorem inner_iff {L : Layout} {i j k : ℕ} : Inner L (idx L i j k) ↔ inLR L 0 i ∧ inLR L 1 j ∧ inLR L 2 k := by
  unfold Inner inLR
  constructor
  · intro h
    have h0 := h 0; have h1 := h 1; have h2 := h 2
    simp only [idx, Matrix.cons_val_zero, Matrix.cons_val_one, Matrix.cons_val] at h0 h1 h2
    omega
  · rintro ⟨h0, h1, h2⟩ d
    fin_cases d <;> simp [idx] <;> omega

/-- the storage of the residual goes with that of the fields -/
structure ResOk (L Lr : Layout) : Prop where
  ldims : Lr.ldims = L.ldims
  ibn : Lr.ibn = L.ibn
  np : Lr.np = L.np
  nc : 0 < Lr.nc
  fields : L.nc = 9

theorem ResOk.im {L Lr : Layout} (h : ResOk L Lr) (d : Fin 3) : Lr.im d = L.im d := by
  unfold Layout.im; rw [h.ldims, h.ibn]

theorem get_res {L Lr : Layout} (h : ResOk L Lr) {Sr : RankState K} {R : List K} (hR : Stores Lr Sr R) {i j k p : ℕ}
    (hi : i < L.im 0) (hj : j < L.im 1) (hk : k < L.im 2) (hp : p < L.np) :
    Lr.off i j k 0 p < R.length ∧ R[Lr.off i j k 0 p]?.getD 0 = Sr p (0, idx L i j k) := by
  have hI : In Lr ⟨i, j, k, 0, p⟩ := ⟨by rw [h.im]; exact hi, by rw [h.im]; exact hj, by rw [h.im]; exact hk, h.nc, by rw [h.np]; exact hp⟩
  refine ⟨by rw [(stores_iff.1 hR).1]; exact at_lt hI, ?_⟩
  rw [get_at hR hI]
  unfold idx
  rw [h.ibn]

theorem inLR_lt {L : Layout} (hb : ∀ d, 0 ≤ L.ibn d) {d : Fin 3} {i : ℕ} (h : inLR L d i) : i < L.im d := by
  rw [lt_im]; have := hb d; unfold inLR at h; omega

theorem inLR_lt1 {L : Layout} {d : Fin 3} (hb : 1 ≤ L.ibn d) {i : ℕ} (h : inLR L d i) : i + 1 < L.im d := by
  rw [lt_im]; unfold inLR at h; push_cast; omega

/-- in 3-d -/
theorem correct_xyz_spec {g : GridP K} {L Lr : Layout} (hinv : ∀ d, g.inv d = false) (hres : ResOk L Lr)
    (hb : ∀ d, 1 ≤ L.ibn d) (diff : K) {S Sr : RankState K} {M R : List K} (hS : Stores L S M) (hR : Stores Lr Sr R)
    {ibn : I3} {ls : List (List (Stmt K))} (hls : correct g L Lr ibn diff = some ls) {o : Option (List K)} (hrun : Run R ls M o) :
    ls.flatten.Pairwise Apart ∧ ∃ M', o = some M' ∧
      Stores L (corrected L g.act (marderFac g diff) ![1, 1, 2] S Sr) M' := by
  unfold correct at hls
  by_cases hc : L.ibn = ibn ∧ Lr.ibn = ibn
  swap
  · rw [if_neg hc] at hls; simp at hls
  rw [if_pos hc] at hls
  obtain rfl := Option.some.inj hls
  have hact : ∀ d, g.act d = true := fun d => by simp [GridP.act, hinv d]
  have h9 := hres.fields
  have hin : ∀ {i j k m p}, i < L.im 0 → j < L.im 1 → k < L.im 2 → m < 9 → p < L.np → In L ⟨i, j, k, m, p⟩ :=
    fun hi hj hk hm hp => In.mk' hi hj hk (by omega) hp
  simp only [hinv 0, Bool.false_eq_true, if_false] at hrun ⊢
  have hfl := flatten_launch (L.im 0) (L.im 1) (L.im 2) L.np (marder_xyz L Lr (marderFac g diff))
  apply prog_stores (C := isE) hS hrun
  · rw [hfl]
    refine launch_dst_sub (m0 := EX) le_rfl le_rfl le_rfl le_rfl (by simp [EX, h9]) fun i j k p => ?_
    unfold marder_xyz
    split_ifs
    · simp
    · simp
  · intro s hs
    rw [hfl, mem_launch4] at hs
    obtain ⟨i, hi, j, hj, k, hk, p, hp, hs⟩ := hs
    unfold marder_xyz at hs
    by_cases hc' : inLR L 0 i ∧ inLR L 1 j ∧ inLR L 2 k
    swap
    · simp [hc'] at hs
    simp only [hc', and_self, if_true, List.mem_append, List.mem_singleton] at hs
    obtain ⟨c0, c1, c2⟩ := hc'
    have i1 := inLR_lt1 (hb 0) c0
    have j1 := inLR_lt1 (hb 1) c1
    have k1 := inLR_lt1 (hb 2) c2
    have hI : Inner L (idx L i j k) := inner_iff.2 ⟨c0, c1, c2⟩
    obtain ⟨⟨s0, s1, s2⟩, -⟩ := idx_shift L i j k
    have g0 : ∀ m < 9, M[L.off i j k m p]?.getD 0 = S p (m, idx L i j k) := fun m hm => get_at hS (hin hi hj hk hm hp)
    have r0 := get_res hres hR hi hj hk hp
    have ry := get_res hres hR hi j1 hk hp
    have rz := get_res hres hR hi hj k1 hp
    rw [s1] at ry
    rw [s2] at rz
    rcases hs with rfl | rfl | rfl
    · refine ⟨⟨i, j, k, EX, p⟩, ⟨rfl, hin hi hj hk (by simp [EX]) hp, by simp [isE, EX], fun a => ?_⟩, fun a => ?_, ?_⟩
      · fin_cases a; exact Or.inl rfl
      · fin_cases a
        · exact ry.1
        · exact r0.1
      · have e := corrected_E L g.act (marderFac g diff) ![1, 1, 2] S Sr p 0 (idx L i j k)
        rw [if_pos ⟨hact 0, hI⟩] at e
        refine Eq.trans ?_ e.symm
        unfold Stmt.value
        change M[L.off i j k EX p]?.getD 0 + _ * (R[Lr.off i (j + 1) k 0 p]?.getD 0 - R[Lr.off i j k 0 p]?.getD 0) = _
        rw [ry.2, r0.2, g0 _ (by simp [EX])]
        rfl
    · refine ⟨⟨i, j, k, EX + 1, p⟩, ⟨rfl, hin hi hj hk (by simp [EX]) hp, by simp [isE, EX], fun a => ?_⟩, fun a => ?_, ?_⟩
      · fin_cases a; exact Or.inl rfl
      · fin_cases a
        · exact ry.1
        · exact r0.1
      · have e := corrected_E L g.act (marderFac g diff) ![1, 1, 2] S Sr p 1 (idx L i j k)
        rw [if_pos ⟨hact 1, hI⟩] at e
        refine Eq.trans ?_ e.symm
        unfold Stmt.value
        change M[L.off i j k (EX + 1) p]?.getD 0 + _ * (R[Lr.off i (j + 1) k 0 p]?.getD 0 - R[Lr.off i j k 0 p]?.getD 0) = _
        rw [ry.2, r0.2, g0 _ (by simp [EX])]
        rfl
    · refine ⟨⟨i, j, k, EX + 2, p⟩, ⟨rfl, hin hi hj hk (by simp [EX]) hp, by simp [isE, EX], fun a => ?_⟩, fun a => ?_, ?_⟩
      · fin_cases a; exact Or.inl rfl
      · fin_cases a
        · exact rz.1
        · exact r0.1
      · have e := corrected_E L g.act (marderFac g diff) ![1, 1, 2] S Sr p 2 (idx L i j k)
        rw [if_pos ⟨hact 2, hI⟩] at e
        refine Eq.trans ?_ e.symm
        unfold Stmt.value
        change M[L.off i j k (EX + 2) p]?.getD 0 + _ * (R[Lr.off i j (k + 1) 0 p]?.getD 0 - R[Lr.off i j k 0 p]?.getD 0) = _
        rw [rz.2, r0.2, g0 _ (by simp [EX])]
        rfl
  · rintro ⟨i, j, k, m, p⟩ hc'
    have hi := hc'.i; have hj := hc'.j; have hk := hc'.k; have hp := hc'.p
    dsimp only at hi hj hk hp
    by_cases hm : ∃ d : Fin 3, m = EX + d
    · obtain ⟨d, rfl⟩ := hm
      by_cases h1 : Inner L (idx L i j k)
      · left
        have hcc := inner_iff.1 h1
        have : ∃ s ∈ marder_xyz L Lr (marderFac g diff) i j k p, s.dst = L.off i j k (EX + d) p := by
          unfold marder_xyz
          simp only [hcc, and_self, if_true, List.mem_append, List.mem_singleton]
          fin_cases d
          · exact ⟨_, Or.inl rfl, rfl⟩
          · exact ⟨_, Or.inr (Or.inl rfl), rfl⟩
          · exact ⟨_, Or.inr (Or.inr rfl), rfl⟩
        obtain ⟨s, hs, e⟩ := this
        refine ⟨s, ?_, e⟩
        rw [hfl, mem_launch4]
        exact ⟨i, hi, j, hj, k, hk, p, hp, hs⟩
      · right
        have e := corrected_E L g.act (marderFac g diff) ![1, 1, 2] S Sr p d (idx L i j k)
        rw [if_neg (fun h => h1 h.2), add_zero] at e
        exact e
    · right
      exact corrected_rest _ _ _ _ _ _ _ _ (fun d e => hm ⟨d, e⟩) _

/-- in the yz plane -/
theorem correct_yz_spec {g : GridP K} {L Lr : Layout} (hY : YzOk g L) (hres : ResOk L Lr) (diff : K) {S Sr : RankState K}
    {M R : List K} (hS : Stores L S M) (hR : Stores Lr Sr R) {ibn : I3} {ls : List (List (Stmt K))}
    (hls : correct g L Lr ibn diff = some ls) {o : Option (List K)} (hrun : Run R ls M o) :
    ls.flatten.Pairwise Apart ∧ ∃ M', o = some M' ∧ Stores L (corrected L g.act (marderFac g diff) id S Sr) M' := by
  unfold correct at hls
  by_cases hc : L.ibn = ibn ∧ Lr.ibn = ibn
  swap
  · rw [if_neg hc] at hls; simp at hls
  rw [if_pos hc] at hls
  obtain rfl := Option.some.inj hls
  have a0 : g.act 0 = false := by simp [GridP.act, hY.inv.1]
  have a1 : g.act 1 = true := by simp [GridP.act, hY.inv.2.1]
  have a2 : g.act 2 = true := by simp [GridP.act, hY.inv.2.2]
  have hx := hY.im0
  have h9 := hres.fields
  have hin : ∀ {j k m p}, j < L.im 1 → k < L.im 2 → m < 9 → p < L.np → In L ⟨0, j, k, m, p⟩ :=
    fun hj hk hm hp => In.mk' (by omega) hj hk (by omega) hp
  have l0 : inLR L 0 0 := by unfold inLR; rw [hY.ibn.1, hY.ldims, hY.one]; omega
  simp only [hY.inv.1, if_true] at hrun ⊢
  have hfl := flatten_launch 1 (L.im 1) (L.im 2) L.np fun _ => marder_yz L Lr (marderFac g diff)
  apply prog_stores (C := isE) hS hrun
  · rw [hfl]
    have hz : launch4 1 (L.im 1) (L.im 2) L.np (fun _ => marder_yz L Lr (marderFac g diff)) =
        launch4 1 (L.im 1) (L.im 2) L.np (fun i => if i = 0 then marder_yz L Lr (marderFac g diff) else fun _ _ _ => []) := by
      unfold launch4
      simp
    rw [hz]
    refine launch_dst_sub (m0 := EX) (by omega) le_rfl le_rfl le_rfl (by simp [EX, h9]) fun i j k p => ?_
    by_cases hi : i = 0
    · subst hi
      simp only [if_true]
      unfold marder_yz
      split_ifs
      · simp only [List.singleton_append, List.map_cons, List.map_nil]
        exact List.Sublist.cons _ (List.Sublist.refl _)
      · simp
    · simp [hi]
  · intro s hs
    rw [hfl, mem_launch4] at hs
    obtain ⟨i, hi, j, hj, k, hk, p, hp, hs⟩ := hs
    unfold marder_yz at hs
    by_cases hc' : inLR L 1 j ∧ inLR L 2 k
    swap
    · simp [hc'] at hs
    simp only [hc', and_self, if_true, List.mem_append, List.mem_singleton] at hs
    obtain ⟨c1, c2⟩ := hc'
    have j1 := inLR_lt1 (by rw [hY.ibn.2.1]; omega) c1
    have k1 := inLR_lt1 (by rw [hY.ibn.2.2]; omega) c2
    have hI : Inner L (idx L 0 j k) := inner_iff.2 ⟨l0, c1, c2⟩
    obtain ⟨⟨s0, s1, s2⟩, -⟩ := idx_shift L 0 j k
    have g0 : ∀ m < 9, M[L.off 0 j k m p]?.getD 0 = S p (m, idx L 0 j k) := fun m hm => get_at hS (hin hj hk hm hp)
    have r0 := get_res hres hR (i := 0) (by omega) hj hk hp
    have ry := get_res hres hR (i := 0) (by omega) j1 hk hp
    have rz := get_res hres hR (i := 0) (by omega) hj k1 hp
    rw [s1] at ry
    rw [s2] at rz
    rcases hs with rfl | rfl
    · refine ⟨⟨0, j, k, EX + 1, p⟩, ⟨rfl, hin hj hk (by simp [EX]) hp, by simp [isE, EX], fun a => ?_⟩, fun a => ?_, ?_⟩
      · fin_cases a; exact Or.inl rfl
      · fin_cases a
        · exact ry.1
        · exact r0.1
      · have e := corrected_E L g.act (marderFac g diff) id S Sr p 1 (idx L 0 j k)
        rw [if_pos ⟨a1, hI⟩] at e
        refine Eq.trans ?_ e.symm
        unfold Stmt.value
        change M[L.off 0 j k (EX + 1) p]?.getD 0 + _ * (R[Lr.off 0 (j + 1) k 0 p]?.getD 0 - R[Lr.off 0 j k 0 p]?.getD 0) = _
        rw [ry.2, r0.2, g0 _ (by simp [EX])]
        rfl
    · refine ⟨⟨0, j, k, EX + 2, p⟩, ⟨rfl, hin hj hk (by simp [EX]) hp, by simp [isE, EX], fun a => ?_⟩, fun a => ?_, ?_⟩
      · fin_cases a; exact Or.inl rfl
      · fin_cases a
        · exact rz.1
        · exact r0.1
      · have e := corrected_E L g.act (marderFac g diff) id S Sr p 2 (idx L 0 j k)
        rw [if_pos ⟨a2, hI⟩] at e
        refine Eq.trans ?_ e.symm
        unfold Stmt.value
        change M[L.off 0 j k (EX + 2) p]?.getD 0 + _ * (R[Lr.off 0 j (k + 1) 0 p]?.getD 0 - R[Lr.off 0 j k 0 p]?.getD 0) = _
        rw [rz.2, r0.2, g0 _ (by simp [EX])]
        rfl
  · rintro ⟨i, j, k, m, p⟩ hc'
    have hi := hc'.i; have hj := hc'.j; have hk := hc'.k; have hp := hc'.p
    dsimp only at hi hj hk hp
    obtain rfl : i = 0 := by omega
    by_cases hm : ∃ d : Fin 3, m = EX + d
    · obtain ⟨d, rfl⟩ := hm
      by_cases h1 : g.act d = true ∧ Inner L (idx L 0 j k)
      · left
        have hcc := (inner_iff.1 h1.2).2
        have : ∃ s ∈ marder_yz L Lr (marderFac g diff) j k p, s.dst = L.off 0 j k (EX + d) p := by
          unfold marder_yz
          simp only [hcc, and_self, if_true, List.mem_append, List.mem_singleton]
          fin_cases d
          · exact absurd (a0.symm.trans h1.1) (by simp)
          · exact ⟨_, Or.inl rfl, rfl⟩
          · exact ⟨_, Or.inr rfl, rfl⟩
        obtain ⟨s, hs, e⟩ := this
        refine ⟨s, ?_, e⟩
        rw [hfl, mem_launch4]
        exact ⟨0, by omega, j, hj, k, hk, p, hp, hs⟩
      · right
        have e := corrected_E L g.act (marderFac g diff) id S Sr p d (idx L 0 j k)
        rw [if_neg h1, add_zero] at e
        exact e
    · right
      exact corrected_rest _ _ _ _ _ _ _ _ (fun d e => hm ⟨d, e⟩) _

end Psc.CudaFlds
