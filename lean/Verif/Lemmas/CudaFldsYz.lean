import Verif.Lemmas.CudaFldsPush

/-!
# The push of `H` on the GPU, and both pushes in the yz plane
-/

namespace Psc.CudaFlds

open Fields FieldStep Spec.CudaFlds Ddc Spec.Yee Spec

variable {K : Type} [Field K]

theorem region_H_xyz {g : GridP K} {L : Layout} (hinv : ∀ d, g.inv d = false) (hl : L.ldims = g.ldims)
    (hib : ∀ d, L.ibn d = 2) {i j k : ℕ} :
    Region g 2 1 (idx L i j k) ↔ i < L.im 0 - 1 ∧ j < L.im 1 - 1 ∧ k < L.im 2 - 1 := by
  unfold Region Layout.im
  rw [hl, hib, hib, hib]
  constructor
  · intro h
    have h0 := h 0; have h1 := h 1; have h2 := h 2
    simp only [hinv, idx, hib, Bool.false_eq_true, if_false, Matrix.cons_val_zero, Matrix.cons_val_one,
      Matrix.cons_val] at h0 h1 h2
    omega
  · rintro ⟨h0, h1, h2⟩ d
    rw [hinv d, if_neg (by simp)]
    fin_cases d <;> simp [idx, hib] <;> omega

theorem push_H_xyz_spec {g : GridP K} {L : Layout} (hinv : ∀ d, g.inv d = false) (hl : L.ldims = g.ldims)
    (hib : ∀ d, L.ibn d = 2) (hnc : L.nc = 9) (fac : K) {S : RankState K} {M : List K} (hS : Stores L S M)
    {o : Option (List K)} (hrun : Run [] (push_H_xyz g L fac) M o) :
    (push_H_xyz g L fac).flatten.Pairwise Apart ∧ ∃ M', o = some M' ∧ Stores L (cpuH g fac S) M' := by
  classical
  have hg : GridOk g := fun d hd => by rw [hinv d] at hd; exact absurd hd (by simp)
  have hact : ∀ d, g.act d = true := fun d => by simp [GridP.act, hinv d]
  by_cases hnp : L.np = 0
  · have e : push_H_xyz g L fac = [] := by unfold push_H_xyz; rw [if_pos hnp]
    rw [e] at hrun ⊢
    exact prog_stores (C := isH) hS hrun (by simp) (by simp) fun c hc => absurd hc.p (by omega)
  · have e : push_H_xyz g L fac = [launch4 (L.im 0 - 1) (L.im 1 - 1) (L.im 2 - 1) L.np
        (H_xyz L fun d => fac * g.dt / g.dx d)] := by unfold push_H_xyz; rw [if_neg hnp]
    rw [e] at hrun ⊢
    clear e
    have hin : ∀ {i j k m p}, i < L.im 0 → j < L.im 1 → k < L.im 2 → m < 9 → p < L.np → In L ⟨i, j, k, m, p⟩ :=
      fun hi hj hk hm hp => In.mk' hi hj hk (by omega) hp
    apply prog_stores (C := isH) hS hrun
    · rw [List.flatten_singleton]
      exact launch_dst (m0 := HX) (by omega) (by omega) (by omega) le_rfl (by simp [HX, hnc]) fun i j k p => Or.inr rfl
    · intro s hs
      rw [List.flatten_singleton, mem_launch4] at hs
      obtain ⟨i, hi, j, hj, k, hk, p, hp, hs⟩ := hs
      have hreg := (region_H_xyz (i := i) (j := j) (k := k) hinv hl hib).2 ⟨hi, hj, hk⟩
      obtain ⟨⟨s0, s1, s2⟩, -⟩ := idx_shift L i j k
      have g0 : ∀ m < 9, M[L.off i j k m p]?.getD 0 = S p (m, idx L i j k) := fun m hm =>
        get_at hS (hin (by omega) (by omega) (by omega) hm hp)
      have gx : ∀ m < 9, M[L.off (i + 1) j k m p]?.getD 0 = S p (m, shift (idx L i j k) 0 1) := fun m hm => by
        rw [get_at hS (hin (by omega) (by omega) (by omega) hm hp), s0]
      have gy : ∀ m < 9, M[L.off i (j + 1) k m p]?.getD 0 = S p (m, shift (idx L i j k) 1 1) := fun m hm => by
        rw [get_at hS (hin (by omega) (by omega) (by omega) hm hp), s1]
      have gz : ∀ m < 9, M[L.off i j (k + 1) m p]?.getD 0 = S p (m, shift (idx L i j k) 2 1) := fun m hm => by
        rw [get_at hS (hin (by omega) (by omega) (by omega) hm hp), s2]
      unfold H_xyz at hs
      simp only [List.mem_cons, List.not_mem_nil, or_false] at hs
      rcases hs with rfl | rfl | rfl
      · refine ⟨⟨i, j, k, HX, p⟩, ⟨rfl, hin (by omega) (by omega) (by omega) (by simp [HX]) hp, by simp [isH, HX], fun a => ?_⟩,
          fun a => a.elim0, ?_⟩
        · fin_cases a
          · exact Or.inl rfl
          · exact Or.inr ⟨⟨i, j + 1, k, EX + 2, p⟩, hin (by omega) (by omega) (by omega) (by simp [EX]) hp, by simp [isH, EX], rfl⟩
          · exact Or.inr ⟨⟨i, j, k, EX + 2, p⟩, hin (by omega) (by omega) (by omega) (by simp [EX]) hp, by simp [isH, EX], rfl⟩
          · exact Or.inr ⟨⟨i, j, k + 1, EX + 1, p⟩, hin (by omega) (by omega) (by omega) (by simp [EX]) hp, by simp [isH, EX], rfl⟩
          · exact Or.inr ⟨⟨i, j, k, EX + 1, p⟩, hin (by omega) (by omega) (by omega) (by simp [EX]) hp, by simp [isH, EX], rfl⟩
        · have e := cpuH_H g hg fac S p 0 (idx L i j k)
          rw [if_pos hreg] at e
          refine Eq.trans ?_ e.symm
          simp only [Stmt.value, curlE, dF, hact, if_true]
          change M[L.off i j k HX p]?.getD 0 - (fac * g.dt / g.dx 1 * (M[L.off i (j + 1) k (EX + 2) p]?.getD 0 - M[L.off i j k (EX + 2) p]?.getD 0) -
            fac * g.dt / g.dx 2 * (M[L.off i j (k + 1) (EX + 1) p]?.getD 0 - M[L.off i j k (EX + 1) p]?.getD 0)) =
            S p (HX, _) + -(fac * g.dt * ((S p (EX + 2, shift _ 1 1) - S p (EX + 2, _)) / g.dx 1 -
              (S p (EX + 1, shift _ 2 1) - S p (EX + 1, _)) / g.dx 2))
          rw [g0 _ (by simp [HX]), g0 _ (by simp [EX]), g0 _ (by simp [EX]), gy _ (by simp [EX]), gz _ (by simp [EX])]
          ring
      · refine ⟨⟨i, j, k, HX + 1, p⟩, ⟨rfl, hin (by omega) (by omega) (by omega) (by simp [HX]) hp, by simp [isH, HX], fun a => ?_⟩,
          fun a => a.elim0, ?_⟩
        · fin_cases a
          · exact Or.inl rfl
          · exact Or.inr ⟨⟨i, j, k + 1, EX, p⟩, hin (by omega) (by omega) (by omega) (by simp [EX]) hp, by simp [isH, EX], rfl⟩
          · exact Or.inr ⟨⟨i, j, k, EX, p⟩, hin (by omega) (by omega) (by omega) (by simp [EX]) hp, by simp [isH, EX], rfl⟩
          · exact Or.inr ⟨⟨i + 1, j, k, EX + 2, p⟩, hin (by omega) (by omega) (by omega) (by simp [EX]) hp, by simp [isH, EX], rfl⟩
          · exact Or.inr ⟨⟨i, j, k, EX + 2, p⟩, hin (by omega) (by omega) (by omega) (by simp [EX]) hp, by simp [isH, EX], rfl⟩
        · have e := cpuH_H g hg fac S p 1 (idx L i j k)
          rw [if_pos hreg] at e
          refine Eq.trans ?_ e.symm
          simp only [Stmt.value, curlE, dF, hact, if_true]
          change M[L.off i j k (HX + 1) p]?.getD 0 - (fac * g.dt / g.dx 2 * (M[L.off i j (k + 1) EX p]?.getD 0 - M[L.off i j k EX p]?.getD 0) -
            fac * g.dt / g.dx 0 * (M[L.off (i + 1) j k (EX + 2) p]?.getD 0 - M[L.off i j k (EX + 2) p]?.getD 0)) =
            S p (HX + 1, _) + -(fac * g.dt * ((S p (EX, shift _ 2 1) - S p (EX, _)) / g.dx 2 -
              (S p (EX + 2, shift _ 0 1) - S p (EX + 2, _)) / g.dx 0))
          rw [g0 _ (by simp [HX]), g0 _ (by simp [EX]), g0 _ (by simp [EX]), gz _ (by simp [EX]), gx _ (by simp [EX])]
          ring
      · refine ⟨⟨i, j, k, HX + 2, p⟩, ⟨rfl, hin (by omega) (by omega) (by omega) (by simp [HX]) hp, by simp [isH, HX], fun a => ?_⟩,
          fun a => a.elim0, ?_⟩
        · fin_cases a
          · exact Or.inl rfl
          · exact Or.inr ⟨⟨i + 1, j, k, EX + 1, p⟩, hin (by omega) (by omega) (by omega) (by simp [EX]) hp, by simp [isH, EX], rfl⟩
          · exact Or.inr ⟨⟨i, j, k, EX + 1, p⟩, hin (by omega) (by omega) (by omega) (by simp [EX]) hp, by simp [isH, EX], rfl⟩
          · exact Or.inr ⟨⟨i, j + 1, k, EX, p⟩, hin (by omega) (by omega) (by omega) (by simp [EX]) hp, by simp [isH, EX], rfl⟩
          · exact Or.inr ⟨⟨i, j, k, EX, p⟩, hin (by omega) (by omega) (by omega) (by simp [EX]) hp, by simp [isH, EX], rfl⟩
        · have e := cpuH_H g hg fac S p 2 (idx L i j k)
          rw [if_pos hreg] at e
          refine Eq.trans ?_ e.symm
          simp only [Stmt.value, curlE, dF, hact, if_true]
          change M[L.off i j k (HX + 2) p]?.getD 0 - (fac * g.dt / g.dx 0 * (M[L.off (i + 1) j k (EX + 1) p]?.getD 0 - M[L.off i j k (EX + 1) p]?.getD 0) -
            fac * g.dt / g.dx 1 * (M[L.off i (j + 1) k EX p]?.getD 0 - M[L.off i j k EX p]?.getD 0)) =
            S p (HX + 2, _) + -(fac * g.dt * ((S p (EX + 1, shift _ 0 1) - S p (EX + 1, _)) / g.dx 0 -
              (S p (EX, shift _ 1 1) - S p (EX, _)) / g.dx 1))
          rw [g0 _ (by simp [HX]), g0 _ (by simp [EX]), g0 _ (by simp [EX]), gx _ (by simp [EX]), gy _ (by simp [EX])]
          ring
    · rintro ⟨i, j, k, m, p⟩ hc'
      have hp := hc'.p
      dsimp only at hp
      by_cases hm : ∃ d : Fin 3, m = HX + d
      · obtain ⟨d, rfl⟩ := hm
        by_cases h1 : Region g 2 1 (idx L i j k)
        · left
          have : ∃ s ∈ H_xyz L (fun d => fac * g.dt / g.dx d) i j k p, s.dst = L.off i j k (HX + d) p := by
            unfold H_xyz
            fin_cases d
            · exact ⟨_, by simp only [List.mem_cons]; exact Or.inl rfl, rfl⟩
            · exact ⟨_, by simp only [List.mem_cons]; exact Or.inr (Or.inl rfl), rfl⟩
            · exact ⟨_, by simp only [List.mem_cons]; exact Or.inr (Or.inr (Or.inl rfl)), rfl⟩
          obtain ⟨s, hs, e⟩ := this
          refine ⟨s, ?_, e⟩
          rw [List.flatten_singleton, mem_launch4]
          obtain ⟨hi, hj, hk⟩ := (region_H_xyz hinv hl hib).1 h1
          exact ⟨i, hi, j, hj, k, hk, p, hp, hs⟩
        · right
          have e := cpuH_H g hg fac S p d (idx L i j k)
          rw [if_neg h1, add_zero] at e
          exact e
      · right
        exact cpuH_rest g hg fac S p m (fun d e => hm ⟨d, e⟩) _

/-! ### yz plane -/

theorem s0_eq (n : ℕ) : s0 n = (1, n - 1) := by
  simp only [s0, slice, Prod.mk.injEq]
  refine ⟨by norm_num, ?_⟩
  rw [if_neg (by norm_num)]; omega

theorem sm_eq (n : ℕ) : sm n = (0, n - 1) := by
  simp only [sm, slice, Prod.mk.injEq]
  refine ⟨by norm_num, ?_⟩
  rw [if_pos (by norm_num)]; omega

theorem mem_assign {n : ℕ} {L : Layout} {lhs : View} {rhs : Fin n → View} {val : (Fin n → K) → K} {s : Stmt K} :
    s ∈ assign L lhs rhs val ↔ ∃ j < lhs.ny, ∃ k < lhs.nz, ∃ p < L.np,
      s = ⟨lhs.at_ j k p, n, fun i => (rhs i).at_ j k p, 0, ![], fun v _ => val v⟩ := by
  unfold assign
  rw [mem_launch4]
  simp only [List.mem_singleton]
  constructor
  · rintro ⟨i, -, h⟩; exact h
  · intro h; exact ⟨0, by omega, h⟩

/-- three assignments to different components write to different places -/
theorem assign3_dst {n1 n2 n3 m0 : ℕ} {L : Layout} {sy sz : ℕ → ℕ × ℕ} {r1 : Fin n1 → View} {r2 : Fin n2 → View}
    {r3 : Fin n3 → View} {v1 : (Fin n1 → K) → K} {v2 : (Fin n2 → K) → K} {v3 : (Fin n3 → K) → K}
    (hx : L.im 0 = 1) (hy : (sy (L.im 1)).1 + (sy (L.im 1)).2 ≤ L.im 1) (hz : (sz (L.im 2)).1 + (sz (L.im 2)).2 ≤ L.im 2)
    (hm : m0 + 3 ≤ L.nc) :
    ([assign L (view L sy sz m0) r1 v1, assign L (view L sy sz (m0 + 1)) r2 v2,
      assign L (view L sy sz (m0 + 2)) r3 v3].flatten).Pairwise fun s t => s.dst ≠ t.dst := by
  have hI : ∀ m < 3, ∀ j < (sy (L.im 1)).2, ∀ k < (sz (L.im 2)).2, ∀ p < L.np,
      In L ⟨0, (sy (L.im 1)).1 + j, (sz (L.im 2)).1 + k, m0 + m, p⟩ := fun m h j hj k hk p hp =>
    In.mk' (by omega) (by omega) (by omega) (by omega) hp
  have h1 : ∀ m < 3, ∀ (n : ℕ) (r : Fin n → View) (v : (Fin n → K) → K),
      (assign L (view L sy sz (m0 + m)) r v).Pairwise fun s t => s.dst ≠ t.dst := by
    intro m hm n r v
    unfold assign
    apply pairwise_launch4
    · intros; exact List.pairwise_singleton _ _
    · intro i hi j hj k hk p hp i' hi' j' hj' k' hk' p' hp' hne s hs t ht
      rw [List.mem_singleton] at hs ht
      subst hs ht
      refine off_ne (hI m hm j hj k hk p hp) (hI m hm j' hj' k' hk' p' hp') fun e => hne ?_
      simp only [Prod.mk.injEq]
      omega
  have h2 : ∀ m < 3, ∀ m' < 3, m ≠ m' → ∀ (n n' : ℕ) (r : Fin n → View) (r' : Fin n' → View) (v : (Fin n → K) → K)
      (v' : (Fin n' → K) → K), ∀ s ∈ assign L (view L sy sz (m0 + m)) r v, ∀ t ∈ assign L (view L sy sz (m0 + m')) r' v',
      s.dst ≠ t.dst := by
    intro m hm m' hm' hne n n' r r' v v' s hs t ht
    rw [mem_assign] at hs ht
    obtain ⟨j, hj, k, hk, p, hp, rfl⟩ := hs
    obtain ⟨j', hj', k', hk', p', hp', rfl⟩ := ht
    exact off_ne (hI m hm j hj k hk p hp) (hI m' hm' j' hj' k' hk' p' hp') fun e => hne (by omega)
  simp only [List.flatten_cons, List.flatten_nil, List.append_nil]
  rw [List.pairwise_append, List.pairwise_append]
  refine ⟨h1 0 (by omega) _ _ _, ⟨h1 1 (by omega) _ _ _, h1 2 (by omega) _ _ _, ?_⟩, ?_⟩
  · exact h2 1 (by omega) 2 (by omega) (by omega) _ _ _ _ _ _
  · intro s hs t ht
    rw [List.mem_append] at ht
    rcases ht with ht | ht
    · exact h2 0 (by omega) 1 (by omega) (by omega) _ _ _ _ _ _ s hs t ht
    · exact h2 0 (by omega) 2 (by omega) (by omega) _ _ _ _ _ _ s hs t ht

/-- grid and storage of a run in the yz plane -/
structure YzOk (g : GridP K) (L : Layout) : Prop where
  inv : g.inv 0 = true ∧ g.inv 1 = false ∧ g.inv 2 = false
  ldims : L.ldims = g.ldims
  one : g.ldims 0 = 1
  ibn : L.ibn 0 = 0 ∧ L.ibn 1 = 2 ∧ L.ibn 2 = 2
  nc : L.nc = 9
  pos : ∀ d, 0 < g.ldims d

theorem YzOk.im0 {g : GridP K} {L : Layout} (h : YzOk g L) : L.im 0 = 1 := by
  simp [Layout.im, h.ldims, h.one, h.ibn.1]

theorem YzOk.im_pos {g : GridP K} {L : Layout} (h : YzOk g L) : 1 ≤ L.im 1 ∧ 1 ≤ L.im 2 := by
  have h1 := h.pos 1; have h2 := h.pos 2
  simp only [Layout.im, h.ldims, h.ibn.2.1, h.ibn.2.2]
  omega

theorem YzOk.grid {g : GridP K} {L : Layout} (h : YzOk g L) : GridOk g := fun d hd => by
  fin_cases d
  · exact h.one
  · exact absurd (h.inv.2.1.symm.trans hd) (by simp)
  · exact absurd (h.inv.2.2.symm.trans hd) (by simp)

theorem YzOk.region_E {g : GridP K} {L : Layout} (h : YzOk g L) {j k : ℕ} (hj : j < L.im 1) (hk : k < L.im 2) :
    Region g 1 2 (idx L 0 j k) ↔ 1 ≤ j ∧ 1 ≤ k := by
  obtain ⟨i0, i1, i2⟩ := h.inv
  obtain ⟨b0, b1, b2⟩ := h.ibn
  rw [lt_im, h.ldims] at hj hk
  rw [b1] at hj
  rw [b2] at hk
  unfold Region
  constructor
  · intro hr
    have h1 := hr 1; have h2 := hr 2
    simp only [i1, i2, idx, b1, b2, Bool.false_eq_true, if_false, Matrix.cons_val_one, Matrix.cons_val] at h1 h2
    omega
  · rintro ⟨h1, h2⟩ d
    fin_cases d
    · simp [i0, idx, b0]
    · simp [i1, idx, b1]; omega
    · simp [i2, idx, b2]; omega

theorem YzOk.region_H {g : GridP K} {L : Layout} (h : YzOk g L) {j k : ℕ} :
    Region g 2 1 (idx L 0 j k) ↔ j < L.im 1 - 1 ∧ k < L.im 2 - 1 := by
  obtain ⟨i0, i1, i2⟩ := h.inv
  obtain ⟨b0, b1, b2⟩ := h.ibn
  unfold Region Layout.im
  rw [h.ldims, b1, b2]
  constructor
  · intro hr
    have h1 := hr 1; have h2 := hr 2
    simp only [i1, i2, idx, b1, b2, Bool.false_eq_true, if_false, Matrix.cons_val_one, Matrix.cons_val] at h1 h2
    omega
  · rintro ⟨h1, h2⟩ d
    fin_cases d
    · simp [i0, idx, b0]
    · simp [i1, idx, b1]; omega
    · simp [i2, idx, b2]; omega

theorem push_E_yz_spec {g : GridP K} {L : Layout} (hY : YzOk g L) (fac : K) {S : RankState K} {M : List K} (hS : Stores L S M)
    {o : Option (List K)} {ls : List (List (Stmt K))} (hls : push_E_yz g L fac = some ls) (hrun : Run [] ls M o) :
    ls.flatten.Pairwise Apart ∧ ∃ M', o = some M' ∧ Stores L (cpuE g fac S) M' := by
  classical
  have hg := hY.grid
  have hx := hY.im0
  have hnc := hY.nc
  have him := hY.im_pos
  have a0 : g.act 0 = false := by simp [GridP.act, hY.inv.1]
  have a1 : g.act 1 = true := by simp [GridP.act, hY.inv.2.1]
  have a2 : g.act 2 = true := by simp [GridP.act, hY.inv.2.2]
  have hin : ∀ {j k m p}, j < L.im 1 → k < L.im 2 → m < 9 → p < L.np → In L ⟨0, j, k, m, p⟩ :=
    fun hj hk hm hp => In.mk' (by omega) hj hk (by omega) hp
  unfold push_E_yz at hls
  split_ifs at hls with hnp hc
  · obtain rfl : [] = ls := by simpa using hls
    exact prog_stores (C := isE) hS hrun (by simp) (by simp) fun c hc => absurd hc.p (by omega)
  · simp only [Option.some.injEq] at hls
    subst hls
    apply prog_stores (C := isE) hS hrun
    · exact assign3_dst hx (by rw [s0_eq]; dsimp only; omega) (by rw [s0_eq]; dsimp only; omega) (by simp [EX, hnc])
    · intro s hs
      simp only [List.flatten_cons, List.flatten_nil, List.append_nil, List.mem_append, mem_assign] at hs
      rcases hs with ⟨j, hj, k, hk, p, hp, rfl⟩ | ⟨j, hj, k, hk, p, hp, rfl⟩ | ⟨j, hj, k, hk, p, hp, rfl⟩
      · simp only [view, s0_eq] at hj hk
        have hreg : Region g 1 2 (idx L 0 (1 + j) (1 + k)) := (hY.region_E (by omega) (by omega)).2 ⟨by omega, by omega⟩
        have g0 : ∀ m < 9, M[L.off 0 (1 + j) (1 + k) m p]?.getD 0 = S p (m, idx L 0 (1 + j) (1 + k)) := fun m hm =>
          get_at hS (hin (by omega) (by omega) hm hp)
        have gy : ∀ m < 9, M[L.off 0 (0 + j) (1 + k) m p]?.getD 0 = S p (m, shift (idx L 0 (1 + j) (1 + k)) 1 (-1)) := fun m hm => by
          rw [get_at hS (hin (by omega) (by omega) hm hp)]; rw [show (1 + j : ℕ) = (0 + j) + 1 by omega]; exact congrArg (fun x => S p (m, x)) (by rw [← ((idx_shift L 0 (0 + j + 1) (1 + k)).2.2.1 (by omega))]; rfl)
        have gz : ∀ m < 9, M[L.off 0 (1 + j) (0 + k) m p]?.getD 0 = S p (m, shift (idx L 0 (1 + j) (1 + k)) 2 (-1)) := fun m hm => by
          rw [get_at hS (hin (by omega) (by omega) hm hp)]; rw [show (1 + k : ℕ) = (0 + k) + 1 by omega]; exact congrArg (fun x => S p (m, x)) (by rw [← ((idx_shift L 0 (1 + j) (0 + k + 1)).2.2.2 (by omega))]; rfl)
        refine ⟨⟨0, 1 + j, 1 + k, EX, p⟩, ⟨by simp only [view, s0_eq]; rfl, hin (by omega) (by omega) (by simp [EX]) hp, by simp [isE, EX], fun a => ?_⟩,
          fun a => a.elim0, ?_⟩
        · fin_cases a
          · exact Or.inl (by simp only [view, s0_eq]; rfl)
          · exact Or.inr ⟨⟨0, (1 + j), (1 + k), HX + 2, p⟩, hin (by omega) (by omega) (by simp [HX]) hp, by simp [isE, HX], by simp only [view, s0_eq, sm_eq]; rfl⟩
          · exact Or.inr ⟨⟨0, (0 + j), (1 + k), HX + 2, p⟩, hin (by omega) (by omega) (by simp [HX]) hp, by simp [isE, HX], by simp only [view, s0_eq, sm_eq]; rfl⟩
          · exact Or.inr ⟨⟨0, (1 + j), (1 + k), HX + 1, p⟩, hin (by omega) (by omega) (by simp [HX]) hp, by simp [isE, HX], by simp only [view, s0_eq, sm_eq]; rfl⟩
          · exact Or.inr ⟨⟨0, (1 + j), (0 + k), HX + 1, p⟩, hin (by omega) (by omega) (by simp [HX]) hp, by simp [isE, HX], by simp only [view, s0_eq, sm_eq]; rfl⟩
          · exact Or.inr ⟨⟨0, (1 + j), (1 + k), JXI, p⟩, hin (by omega) (by omega) (by simp [JXI]) hp, by simp [isE, JXI], by simp only [view, s0_eq, sm_eq]; rfl⟩
        · have e := cpuE_E g hg fac S p 0 (idx L 0 (1 + j) (1 + k))
          rw [if_pos hreg] at e
          refine Eq.trans ?_ e.symm
          simp only [Stmt.value, curlH, dB, view, s0_eq, sm_eq]
          rw [show g.act (0 + 1) = _ from a1, show g.act (0 + 2) = _ from a2]
          simp only [if_true, if_false, Bool.false_eq_true]
          change M[L.off 0 (1 + j) (1 + k) EX p]?.getD 0 + (fac * g.dt / g.dx 1 * (M[L.off 0 (1 + j) (1 + k) (HX + 2) p]?.getD 0 - M[L.off 0 (0 + j) (1 + k) (HX + 2) p]?.getD 0) - fac * g.dt / g.dx 2 * (M[L.off 0 (1 + j) (1 + k) (HX + 1) p]?.getD 0 - M[L.off 0 (1 + j) (0 + k) (HX + 1) p]?.getD 0) - 0 - fac * g.dt * M[L.off 0 (1 + j) (1 + k) JXI p]?.getD 0) =
            S p (EX, _) + fac * g.dt * ((S p (HX + 2, _) - S p (HX + 2, shift _ 1 (-1))) / g.dx 1 - (S p (HX + 1, _) - S p (HX + 1, shift _ 2 (-1))) / g.dx 2 - S p (JXI, _))
          rw [g0 _ (by simp [EX]), g0 _ (by simp [HX]), gy _ (by simp [HX]), g0 _ (by simp [HX]), gz _ (by simp [HX]), g0 _ (by simp [JXI])]
          ring
      · simp only [view, s0_eq] at hj hk
        have hreg : Region g 1 2 (idx L 0 (1 + j) (1 + k)) := (hY.region_E (by omega) (by omega)).2 ⟨by omega, by omega⟩
        have g0 : ∀ m < 9, M[L.off 0 (1 + j) (1 + k) m p]?.getD 0 = S p (m, idx L 0 (1 + j) (1 + k)) := fun m hm =>
          get_at hS (hin (by omega) (by omega) hm hp)
        have gy : ∀ m < 9, M[L.off 0 (0 + j) (1 + k) m p]?.getD 0 = S p (m, shift (idx L 0 (1 + j) (1 + k)) 1 (-1)) := fun m hm => by
          rw [get_at hS (hin (by omega) (by omega) hm hp)]; rw [show (1 + j : ℕ) = (0 + j) + 1 by omega]; exact congrArg (fun x => S p (m, x)) (by rw [← ((idx_shift L 0 (0 + j + 1) (1 + k)).2.2.1 (by omega))]; rfl)
        have gz : ∀ m < 9, M[L.off 0 (1 + j) (0 + k) m p]?.getD 0 = S p (m, shift (idx L 0 (1 + j) (1 + k)) 2 (-1)) := fun m hm => by
          rw [get_at hS (hin (by omega) (by omega) hm hp)]; rw [show (1 + k : ℕ) = (0 + k) + 1 by omega]; exact congrArg (fun x => S p (m, x)) (by rw [← ((idx_shift L 0 (1 + j) (0 + k + 1)).2.2.2 (by omega))]; rfl)
        refine ⟨⟨0, 1 + j, 1 + k, EX + 1, p⟩, ⟨by simp only [view, s0_eq]; rfl, hin (by omega) (by omega) (by simp [EX]) hp, by simp [isE, EX], fun a => ?_⟩,
          fun a => a.elim0, ?_⟩
        · fin_cases a
          · exact Or.inl (by simp only [view, s0_eq]; rfl)
          · exact Or.inr ⟨⟨0, (1 + j), (1 + k), HX, p⟩, hin (by omega) (by omega) (by simp [HX]) hp, by simp [isE, HX], by simp only [view, s0_eq, sm_eq]; rfl⟩
          · exact Or.inr ⟨⟨0, (1 + j), (0 + k), HX, p⟩, hin (by omega) (by omega) (by simp [HX]) hp, by simp [isE, HX], by simp only [view, s0_eq, sm_eq]; rfl⟩
          · exact Or.inr ⟨⟨0, (1 + j), (1 + k), JXI + 1, p⟩, hin (by omega) (by omega) (by simp [JXI]) hp, by simp [isE, JXI], by simp only [view, s0_eq, sm_eq]; rfl⟩
        · have e := cpuE_E g hg fac S p 1 (idx L 0 (1 + j) (1 + k))
          rw [if_pos hreg] at e
          refine Eq.trans ?_ e.symm
          simp only [Stmt.value, curlH, dB, view, s0_eq, sm_eq]
          rw [show g.act (1 + 1) = _ from a2, show g.act (1 + 2) = _ from a0]
          simp only [if_true, if_false, Bool.false_eq_true]
          change M[L.off 0 (1 + j) (1 + k) (EX + 1) p]?.getD 0 + (fac * g.dt / g.dx 2 * (M[L.off 0 (1 + j) (1 + k) HX p]?.getD 0 - M[L.off 0 (1 + j) (0 + k) HX p]?.getD 0) - 0 - fac * g.dt * M[L.off 0 (1 + j) (1 + k) (JXI + 1) p]?.getD 0) =
            S p (EX + 1, _) + fac * g.dt * ((S p (HX, _) - S p (HX, shift _ 2 (-1))) / g.dx 2 - 0 - S p (JXI + 1, _))
          rw [g0 _ (by simp [EX]), g0 _ (by simp [HX]), gz _ (by simp [HX]), g0 _ (by simp [JXI])]
          ring
      · simp only [view, s0_eq] at hj hk
        have hreg : Region g 1 2 (idx L 0 (1 + j) (1 + k)) := (hY.region_E (by omega) (by omega)).2 ⟨by omega, by omega⟩
        have g0 : ∀ m < 9, M[L.off 0 (1 + j) (1 + k) m p]?.getD 0 = S p (m, idx L 0 (1 + j) (1 + k)) := fun m hm =>
          get_at hS (hin (by omega) (by omega) hm hp)
        have gy : ∀ m < 9, M[L.off 0 (0 + j) (1 + k) m p]?.getD 0 = S p (m, shift (idx L 0 (1 + j) (1 + k)) 1 (-1)) := fun m hm => by
          rw [get_at hS (hin (by omega) (by omega) hm hp)]; rw [show (1 + j : ℕ) = (0 + j) + 1 by omega]; exact congrArg (fun x => S p (m, x)) (by rw [← ((idx_shift L 0 (0 + j + 1) (1 + k)).2.2.1 (by omega))]; rfl)
        have gz : ∀ m < 9, M[L.off 0 (1 + j) (0 + k) m p]?.getD 0 = S p (m, shift (idx L 0 (1 + j) (1 + k)) 2 (-1)) := fun m hm => by
          rw [get_at hS (hin (by omega) (by omega) hm hp)]; rw [show (1 + k : ℕ) = (0 + k) + 1 by omega]; exact congrArg (fun x => S p (m, x)) (by rw [← ((idx_shift L 0 (1 + j) (0 + k + 1)).2.2.2 (by omega))]; rfl)
        refine ⟨⟨0, 1 + j, 1 + k, EX + 2, p⟩, ⟨by simp only [view, s0_eq]; rfl, hin (by omega) (by omega) (by simp [EX]) hp, by simp [isE, EX], fun a => ?_⟩,
          fun a => a.elim0, ?_⟩
        · fin_cases a
          · exact Or.inl (by simp only [view, s0_eq]; rfl)
          · exact Or.inr ⟨⟨0, (1 + j), (1 + k), HX, p⟩, hin (by omega) (by omega) (by simp [HX]) hp, by simp [isE, HX], by simp only [view, s0_eq, sm_eq]; rfl⟩
          · exact Or.inr ⟨⟨0, (0 + j), (1 + k), HX, p⟩, hin (by omega) (by omega) (by simp [HX]) hp, by simp [isE, HX], by simp only [view, s0_eq, sm_eq]; rfl⟩
          · exact Or.inr ⟨⟨0, (1 + j), (1 + k), JXI + 2, p⟩, hin (by omega) (by omega) (by simp [JXI]) hp, by simp [isE, JXI], by simp only [view, s0_eq, sm_eq]; rfl⟩
        · have e := cpuE_E g hg fac S p 2 (idx L 0 (1 + j) (1 + k))
          rw [if_pos hreg] at e
          refine Eq.trans ?_ e.symm
          simp only [Stmt.value, curlH, dB, view, s0_eq, sm_eq]
          rw [show g.act (2 + 1) = _ from a0, show g.act (2 + 2) = _ from a1]
          simp only [if_true, if_false, Bool.false_eq_true]
          change M[L.off 0 (1 + j) (1 + k) (EX + 2) p]?.getD 0 + (0 - fac * g.dt / g.dx 1 * (M[L.off 0 (1 + j) (1 + k) HX p]?.getD 0 - M[L.off 0 (0 + j) (1 + k) HX p]?.getD 0) - fac * g.dt * M[L.off 0 (1 + j) (1 + k) (JXI + 2) p]?.getD 0) =
            S p (EX + 2, _) + fac * g.dt * (0 - (S p (HX, _) - S p (HX, shift _ 1 (-1))) / g.dx 1 - S p (JXI + 2, _))
          rw [g0 _ (by simp [EX]), g0 _ (by simp [HX]), gy _ (by simp [HX]), g0 _ (by simp [JXI])]
          ring
    · rintro ⟨i, j, k, m, p⟩ hc'
      have hi := hc'.i; have hj := hc'.j; have hk := hc'.k; have hp := hc'.p
      dsimp only at hi hj hk hp
      obtain rfl : i = 0 := by omega
      by_cases hm : ∃ d : Fin 3, m = EX + d
      · obtain ⟨d, rfl⟩ := hm
        by_cases h1 : Region g 1 2 (idx L 0 j k)
        · left
          have hr := (hY.region_E hj hk).1 h1
          have hv : ∀ m, L.off 0 j k m p = (view L s0 s0 m).at_ (j - 1) (k - 1) p := fun m => by
            simp only [view, s0_eq]
            congr 1 <;> omega
          have hny : ∀ m, (j - 1) < (view L s0 s0 m).ny := fun m => by simp only [view, s0_eq]; omega
          have hnz : ∀ m, (k - 1) < (view L s0 s0 m).nz := fun m => by simp only [view, s0_eq]; omega
          simp only [List.flatten_cons, List.flatten_nil, List.append_nil, List.mem_append, mem_assign]
          change ∃ s : Stmt K, _ ∧ s.dst = L.off 0 j k (EX + d) p
          rw [hv]
          fin_cases d
          · exact ⟨_, Or.inl ⟨_, hny _, _, hnz _, p, hp, rfl⟩, rfl⟩
          · exact ⟨_, Or.inr (Or.inl ⟨_, hny _, _, hnz _, p, hp, rfl⟩), rfl⟩
          · exact ⟨_, Or.inr (Or.inr ⟨_, hny _, _, hnz _, p, hp, rfl⟩), rfl⟩
        · right
          have e := cpuE_E g hg fac S p d (idx L 0 j k)
          rw [if_neg h1, add_zero] at e
          exact e
      · right
        exact cpuE_rest g hg fac S p m (fun d e => hm ⟨d, e⟩) _

theorem push_H_yz_spec {g : GridP K} {L : Layout} (hY : YzOk g L) (fac : K) {S : RankState K} {M : List K} (hS : Stores L S M)
    {o : Option (List K)} (hrun : Run [] (push_H_yz g L fac) M o) :
    (push_H_yz g L fac).flatten.Pairwise Apart ∧ ∃ M', o = some M' ∧ Stores L (cpuH g fac S) M' := by
  classical
  have hg := hY.grid
  have hx := hY.im0
  have hnc := hY.nc
  have him := hY.im_pos
  have a0 : g.act 0 = false := by simp [GridP.act, hY.inv.1]
  have a1 : g.act 1 = true := by simp [GridP.act, hY.inv.2.1]
  have a2 : g.act 2 = true := by simp [GridP.act, hY.inv.2.2]
  have hin : ∀ {j k m p}, j < L.im 1 → k < L.im 2 → m < 9 → p < L.np → In L ⟨0, j, k, m, p⟩ :=
    fun hj hk hm hp => In.mk' (by omega) hj hk (by omega) hp
  by_cases hnp : L.np = 0
  · have e : push_H_yz g L fac = [] := by unfold push_H_yz; rw [if_pos hnp]
    rw [e] at hrun ⊢
    exact prog_stores (C := isH) hS hrun (by simp) (by simp) fun c hc => absurd hc.p (by omega)
  · unfold push_H_yz at hrun ⊢
    rw [if_neg hnp] at hrun ⊢
    apply prog_stores (C := isH) hS hrun
    · exact assign3_dst hx (by rw [sm_eq]; dsimp only; omega) (by rw [sm_eq]; dsimp only; omega) (by simp [HX, hnc])
    · intro s hs
      simp only [List.flatten_cons, List.flatten_nil, List.append_nil, List.mem_append, mem_assign] at hs
      rcases hs with ⟨j, hj, k, hk, p, hp, rfl⟩ | ⟨j, hj, k, hk, p, hp, rfl⟩ | ⟨j, hj, k, hk, p, hp, rfl⟩
      · simp only [view, sm_eq] at hj hk
        have hreg : Region g 2 1 (idx L 0 (0 + j) (0 + k)) := hY.region_H.2 ⟨by omega, by omega⟩
        have g0 : ∀ m < 9, M[L.off 0 (0 + j) (0 + k) m p]?.getD 0 = S p (m, idx L 0 (0 + j) (0 + k)) := fun m hm =>
          get_at hS (hin (by omega) (by omega) hm hp)
        have gy : ∀ m < 9, M[L.off 0 (1 + j) (0 + k) m p]?.getD 0 = S p (m, shift (idx L 0 (0 + j) (0 + k)) 1 1) := fun m hm => by
          rw [get_at hS (hin (by omega) (by omega) hm hp)]; rw [show (1 + j : ℕ) = (0 + j) + 1 by omega, (idx_shift L 0 (0 + j) (0 + k)).1.2.1]
        have gz : ∀ m < 9, M[L.off 0 (0 + j) (1 + k) m p]?.getD 0 = S p (m, shift (idx L 0 (0 + j) (0 + k)) 2 1) := fun m hm => by
          rw [get_at hS (hin (by omega) (by omega) hm hp)]; rw [show (1 + k : ℕ) = (0 + k) + 1 by omega, (idx_shift L 0 (0 + j) (0 + k)).1.2.2]
        refine ⟨⟨0, 0 + j, 0 + k, HX, p⟩, ⟨by simp only [view, sm_eq]; rfl, hin (by omega) (by omega) (by simp [HX]) hp, by simp [isH, HX], fun a => ?_⟩,
          fun a => a.elim0, ?_⟩
        · fin_cases a
          · exact Or.inl (by simp only [view, sm_eq]; rfl)
          · exact Or.inr ⟨⟨0, (1 + j), (0 + k), EX + 2, p⟩, hin (by omega) (by omega) (by simp [EX]) hp, by simp [isH, EX], by simp only [view, s0_eq, sm_eq]; rfl⟩
          · exact Or.inr ⟨⟨0, (0 + j), (0 + k), EX + 2, p⟩, hin (by omega) (by omega) (by simp [EX]) hp, by simp [isH, EX], by simp only [view, s0_eq, sm_eq]; rfl⟩
          · exact Or.inr ⟨⟨0, (0 + j), (1 + k), EX + 1, p⟩, hin (by omega) (by omega) (by simp [EX]) hp, by simp [isH, EX], by simp only [view, s0_eq, sm_eq]; rfl⟩
          · exact Or.inr ⟨⟨0, (0 + j), (0 + k), EX + 1, p⟩, hin (by omega) (by omega) (by simp [EX]) hp, by simp [isH, EX], by simp only [view, s0_eq, sm_eq]; rfl⟩
        · have e := cpuH_H g hg fac S p 0 (idx L 0 (0 + j) (0 + k))
          rw [if_pos hreg] at e
          refine Eq.trans ?_ e.symm
          simp only [Stmt.value, curlE, dF, view, s0_eq, sm_eq]
          rw [show g.act (0 + 1) = _ from a1, show g.act (0 + 2) = _ from a2]
          simp only [if_true, if_false, Bool.false_eq_true]
          change M[L.off 0 (0 + j) (0 + k) HX p]?.getD 0 - (fac * g.dt / g.dx 1 * (M[L.off 0 (1 + j) (0 + k) (EX + 2) p]?.getD 0 - M[L.off 0 (0 + j) (0 + k) (EX + 2) p]?.getD 0) - fac * g.dt / g.dx 2 * (M[L.off 0 (0 + j) (1 + k) (EX + 1) p]?.getD 0 - M[L.off 0 (0 + j) (0 + k) (EX + 1) p]?.getD 0)) =
            S p (HX, _) + -(fac * g.dt * ((S p (EX + 2, shift _ 1 1) - S p (EX + 2, _)) / g.dx 1 - (S p (EX + 1, shift _ 2 1) - S p (EX + 1, _)) / g.dx 2))
          rw [g0 _ (by simp [HX]), g0 _ (by simp [EX]), gy _ (by simp [EX]), g0 _ (by simp [EX]), gz _ (by simp [EX])]
          ring
      · simp only [view, sm_eq] at hj hk
        have hreg : Region g 2 1 (idx L 0 (0 + j) (0 + k)) := hY.region_H.2 ⟨by omega, by omega⟩
        have g0 : ∀ m < 9, M[L.off 0 (0 + j) (0 + k) m p]?.getD 0 = S p (m, idx L 0 (0 + j) (0 + k)) := fun m hm =>
          get_at hS (hin (by omega) (by omega) hm hp)
        have gy : ∀ m < 9, M[L.off 0 (1 + j) (0 + k) m p]?.getD 0 = S p (m, shift (idx L 0 (0 + j) (0 + k)) 1 1) := fun m hm => by
          rw [get_at hS (hin (by omega) (by omega) hm hp)]; rw [show (1 + j : ℕ) = (0 + j) + 1 by omega, (idx_shift L 0 (0 + j) (0 + k)).1.2.1]
        have gz : ∀ m < 9, M[L.off 0 (0 + j) (1 + k) m p]?.getD 0 = S p (m, shift (idx L 0 (0 + j) (0 + k)) 2 1) := fun m hm => by
          rw [get_at hS (hin (by omega) (by omega) hm hp)]; rw [show (1 + k : ℕ) = (0 + k) + 1 by omega, (idx_shift L 0 (0 + j) (0 + k)).1.2.2]
        refine ⟨⟨0, 0 + j, 0 + k, HX + 1, p⟩, ⟨by simp only [view, sm_eq]; rfl, hin (by omega) (by omega) (by simp [HX]) hp, by simp [isH, HX], fun a => ?_⟩,
          fun a => a.elim0, ?_⟩
        · fin_cases a
          · exact Or.inl (by simp only [view, sm_eq]; rfl)
          · exact Or.inr ⟨⟨0, (0 + j), (1 + k), EX, p⟩, hin (by omega) (by omega) (by simp [EX]) hp, by simp [isH, EX], by simp only [view, s0_eq, sm_eq]; rfl⟩
          · exact Or.inr ⟨⟨0, (0 + j), (0 + k), EX, p⟩, hin (by omega) (by omega) (by simp [EX]) hp, by simp [isH, EX], by simp only [view, s0_eq, sm_eq]; rfl⟩
        · have e := cpuH_H g hg fac S p 1 (idx L 0 (0 + j) (0 + k))
          rw [if_pos hreg] at e
          refine Eq.trans ?_ e.symm
          simp only [Stmt.value, curlE, dF, view, s0_eq, sm_eq]
          rw [show g.act (1 + 1) = _ from a2, show g.act (1 + 2) = _ from a0]
          simp only [if_true, if_false, Bool.false_eq_true]
          change M[L.off 0 (0 + j) (0 + k) (HX + 1) p]?.getD 0 - (fac * g.dt / g.dx 2 * (M[L.off 0 (0 + j) (1 + k) EX p]?.getD 0 - M[L.off 0 (0 + j) (0 + k) EX p]?.getD 0)) =
            S p (HX + 1, _) + -(fac * g.dt * ((S p (EX, shift _ 2 1) - S p (EX, _)) / g.dx 2 - 0))
          rw [g0 _ (by simp [HX]), g0 _ (by simp [EX]), gz _ (by simp [EX])]
          ring
      · simp only [view, sm_eq] at hj hk
        have hreg : Region g 2 1 (idx L 0 (0 + j) (0 + k)) := hY.region_H.2 ⟨by omega, by omega⟩
        have g0 : ∀ m < 9, M[L.off 0 (0 + j) (0 + k) m p]?.getD 0 = S p (m, idx L 0 (0 + j) (0 + k)) := fun m hm =>
          get_at hS (hin (by omega) (by omega) hm hp)
        have gy : ∀ m < 9, M[L.off 0 (1 + j) (0 + k) m p]?.getD 0 = S p (m, shift (idx L 0 (0 + j) (0 + k)) 1 1) := fun m hm => by
          rw [get_at hS (hin (by omega) (by omega) hm hp)]; rw [show (1 + j : ℕ) = (0 + j) + 1 by omega, (idx_shift L 0 (0 + j) (0 + k)).1.2.1]
        have gz : ∀ m < 9, M[L.off 0 (0 + j) (1 + k) m p]?.getD 0 = S p (m, shift (idx L 0 (0 + j) (0 + k)) 2 1) := fun m hm => by
          rw [get_at hS (hin (by omega) (by omega) hm hp)]; rw [show (1 + k : ℕ) = (0 + k) + 1 by omega, (idx_shift L 0 (0 + j) (0 + k)).1.2.2]
        refine ⟨⟨0, 0 + j, 0 + k, HX + 2, p⟩, ⟨by simp only [view, sm_eq]; rfl, hin (by omega) (by omega) (by simp [HX]) hp, by simp [isH, HX], fun a => ?_⟩,
          fun a => a.elim0, ?_⟩
        · fin_cases a
          · exact Or.inl (by simp only [view, sm_eq]; rfl)
          · exact Or.inr ⟨⟨0, (1 + j), (0 + k), EX, p⟩, hin (by omega) (by omega) (by simp [EX]) hp, by simp [isH, EX], by simp only [view, s0_eq, sm_eq]; rfl⟩
          · exact Or.inr ⟨⟨0, (0 + j), (0 + k), EX, p⟩, hin (by omega) (by omega) (by simp [EX]) hp, by simp [isH, EX], by simp only [view, s0_eq, sm_eq]; rfl⟩
        · have e := cpuH_H g hg fac S p 2 (idx L 0 (0 + j) (0 + k))
          rw [if_pos hreg] at e
          refine Eq.trans ?_ e.symm
          simp only [Stmt.value, curlE, dF, view, s0_eq, sm_eq]
          rw [show g.act (2 + 1) = _ from a0, show g.act (2 + 2) = _ from a1]
          simp only [if_true, if_false, Bool.false_eq_true]
          change M[L.off 0 (0 + j) (0 + k) (HX + 2) p]?.getD 0 - (0 - fac * g.dt / g.dx 1 * (M[L.off 0 (1 + j) (0 + k) EX p]?.getD 0 - M[L.off 0 (0 + j) (0 + k) EX p]?.getD 0)) =
            S p (HX + 2, _) + -(fac * g.dt * (0 - (S p (EX, shift _ 1 1) - S p (EX, _)) / g.dx 1))
          rw [g0 _ (by simp [HX]), g0 _ (by simp [EX]), gy _ (by simp [EX])]
          ring
    · rintro ⟨i, j, k, m, p⟩ hc'
      have hi := hc'.i; have hj := hc'.j; have hk := hc'.k; have hp := hc'.p
      dsimp only at hi hj hk hp
      obtain rfl : i = 0 := by omega
      by_cases hm : ∃ d : Fin 3, m = HX + d
      · obtain ⟨d, rfl⟩ := hm
        by_cases h1 : Region g 2 1 (idx L 0 j k)
        · left
          have hr := hY.region_H.1 h1
          have hv : ∀ m, L.off 0 j k m p = (view L sm sm m).at_ (j) (k) p := fun m => by
            simp only [view, sm_eq]
            congr 1 <;> omega
          have hny : ∀ m, (j) < (view L sm sm m).ny := fun m => by simp only [view, sm_eq]; omega
          have hnz : ∀ m, (k) < (view L sm sm m).nz := fun m => by simp only [view, sm_eq]; omega
          simp only [List.flatten_cons, List.flatten_nil, List.append_nil, List.mem_append, mem_assign]
          change ∃ s : Stmt K, _ ∧ s.dst = L.off 0 j k (HX + d) p
          rw [hv]
          fin_cases d
          · exact ⟨_, Or.inl ⟨_, hny _, _, hnz _, p, hp, rfl⟩, rfl⟩
          · exact ⟨_, Or.inr (Or.inl ⟨_, hny _, _, hnz _, p, hp, rfl⟩), rfl⟩
          · exact ⟨_, Or.inr (Or.inr ⟨_, hny _, _, hnz _, p, hp, rfl⟩), rfl⟩
        · right
          have e := cpuH_H g hg fac S p d (idx L 0 j k)
          rw [if_neg h1, add_zero] at e
          exact e
      · right
        exact cpuH_rest g hg fac S p m (fun d e => hm ⟨d, e⟩) _

end Psc.CudaFlds
