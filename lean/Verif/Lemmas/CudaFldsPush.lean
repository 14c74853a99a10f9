import Verif.Lemmas.CudaFlds

/-!
# The field push on the GPU does what that on the CPU does
-/

namespace Psc.CudaFlds

open Fields FieldStep Spec.CudaFlds Ddc Spec.Yee Spec

variable {K : Type} [Field K]

/-- from the assignments of a sequence of launches to what the memory has afterwards -/
theorem prog_stores {L : Layout} {C : ℕ → Prop} {R : List K} {ls : List (List (Stmt K))} {M : List K} {S S' : RankState K}
    {o : Option (List K)} (hS : Stores L S M) (hrun : Run R ls M o)
    (hP : ls.flatten.Pairwise fun s t => s.dst ≠ t.dst)
    (hW : ∀ s ∈ ls.flatten, ∃ c, Writes L C s c ∧ (∀ i, s.rsrc i < R.length) ∧ s.value R M = S' c.p (c.m, c.idx L))
    (hcov : ∀ c, In L c → (∃ s ∈ ls.flatten, s.dst = L.at c) ∨ S' c.p (c.m, c.idx L) = S c.p (c.m, c.idx L)) :
    ls.flatten.Pairwise Apart ∧ ∃ M', o = some M' ∧ Stores L S' M' := by
  rw [stores_iff] at hS
  have hI : ls.flatten.Pairwise Apart := hP.imp_of_mem fun {s t} hs ht hne => by
    obtain ⟨c, hc, -⟩ := hW s hs
    obtain ⟨c', hc', -⟩ := hW t ht
    refine hc.apart hc' fun e => hne ?_
    rw [hc.dst, hc'.dst, e]
  refine ⟨hI, ?_⟩
  obtain ⟨M', ho, hl, hv, hk⟩ := run_spec hrun (fun s hs => by
    obtain ⟨c, hc, hr, -⟩ := hW s hs
    exact hc.ok hS.1 hr) hI
  refine ⟨M', ho, stores_iff.2 ⟨by rw [hl, hS.1], fun c hc => ?_⟩⟩
  by_cases h : ∃ s ∈ ls.flatten, s.dst = L.at c
  · obtain ⟨s, hs, e⟩ := h
    obtain ⟨c', hc', -, e'⟩ := hW s hs
    rw [← e, hv s hs, e']
    rw [hc'.dst] at e
    rw [at_inj hc'.isIn hc e]
  · rcases hcov c hc with h' | h'
    · exact absurd h' h
    · rw [hk _ fun s hs e => h ⟨s, hs, e.symm⟩, hS.2 c hc, h']

/-- the fields of a rank after the push of `E` on the CPU -/
def cpuE (g : GridP K) (fac : K) (S : RankState K) : RankState K := fun p => ofFlds (push_E g fac (toFlds (S p))) (S p)

/-- the fields of a rank after the push of `H` on the CPU -/
def cpuH (g : GridP K) (fac : K) (S : RankState K) : RankState K := fun p => ofFlds (push_H g fac (toFlds (S p))) (S p)

open Classical in
theorem cpuE_E (g : GridP K) (hg : GridOk g) (fac : K) (S : RankState K) (p : ℕ) (d : Fin 3) (n : I3) :
    cpuE g fac S p (EX + d, n) = S p (EX + d, n) + if Region g 1 2 n then (fac * g.dt) *
      (curlH g.act g.dx (fun d n => S p (HX + d, n)) d n - S p (JXI + d, n)) else 0 := by
  unfold cpuE
  rw [ofFlds_E, (push_E_eq g hg fac _).2.2, toFlds_E, toFlds_J]
  have : (fun d => cv ((toFlds (S p)).H d)) = fun (d : Fin 3) n => S p (HX + d, n) := by
    funext d n; rw [toFlds_H]
  rw [this]

theorem comp_cases (m : ℕ) : (∃ d : Fin 3, m = JXI + d) ∨ (∃ d : Fin 3, m = EX + d) ∨ (∃ d : Fin 3, m = HX + d) ∨ 9 ≤ m := by
  by_cases h : 9 ≤ m
  · exact Or.inr (Or.inr (Or.inr h))
  · by_cases h6 : 6 ≤ m
    · exact Or.inr (Or.inr (Or.inl ⟨⟨m - 6, by omega⟩, by simp only [HX]; omega⟩))
    · by_cases h3 : 3 ≤ m
      · exact Or.inr (Or.inl ⟨⟨m - 3, by omega⟩, by simp only [EX]; omega⟩)
      · exact Or.inl ⟨⟨m, by omega⟩, by simp only [JXI]; omega⟩

theorem ofFlds_rest (G : Flds K) (F : PF K) (m : ℕ) (h : 9 ≤ m) (n : I3) : ofFlds G F (m, n) = F (m, n) := by
  unfold ofFlds
  simp only
  rw [dif_neg (by omega), dif_neg (by omega), dif_neg (by omega)]

theorem cpuE_rest (g : GridP K) (hg : GridOk g) (fac : K) (S : RankState K) (p : ℕ) (m : ℕ)
    (hm : ∀ d : Fin 3, m ≠ EX + d) (n : I3) : cpuE g fac S p (m, n) = S p (m, n) := by
  unfold cpuE
  rcases comp_cases m with ⟨d, rfl⟩ | ⟨d, rfl⟩ | ⟨d, rfl⟩ | h
  · rw [ofFlds_J, (push_E_eq g hg fac _).2.1, toFlds_J]
  · exact absurd rfl (hm d)
  · rw [ofFlds_H, (push_E_eq g hg fac _).1, toFlds_H]
  · exact ofFlds_rest _ _ _ h _

open Classical in
theorem cpuH_H (g : GridP K) (hg : GridOk g) (fac : K) (S : RankState K) (p : ℕ) (d : Fin 3) (n : I3) :
    cpuH g fac S p (HX + d, n) = S p (HX + d, n) + if Region g 2 1 n then -((fac * g.dt) *
      curlE g.act g.dx (fun d n => S p (EX + d, n)) d n) else 0 := by
  unfold cpuH
  rw [ofFlds_H, (push_H_eq g hg fac _).2.2, toFlds_H]
  have : (fun d => cv ((toFlds (S p)).E d)) = fun (d : Fin 3) n => S p (EX + d, n) := by
    funext d n; rw [toFlds_E]
  rw [this]

theorem cpuH_rest (g : GridP K) (hg : GridOk g) (fac : K) (S : RankState K) (p : ℕ) (m : ℕ)
    (hm : ∀ d : Fin 3, m ≠ HX + d) (n : I3) : cpuH g fac S p (m, n) = S p (m, n) := by
  unfold cpuH
  rcases comp_cases m with ⟨d, rfl⟩ | ⟨d, rfl⟩ | ⟨d, rfl⟩ | h
  · rw [ofFlds_J, (push_H_eq g hg fac _).2.1, toFlds_J]
  · rw [ofFlds_E, (push_H_eq g hg fac _).1, toFlds_E]
  · exact absurd rfl (hm d)
  · exact ofFlds_rest _ _ _ h _

/-- index of the cell `(i, j, k)` of the storage -/
def idx (L : Layout) (i j k : ℕ) : I3 := fun d => (![(i : ℤ), j, k] : I3) d - L.ibn d

theorem idx_shift (L : Layout) (i j k : ℕ) :
    (idx L (i + 1) j k = shift (idx L i j k) 0 1 ∧ idx L i (j + 1) k = shift (idx L i j k) 1 1 ∧
      idx L i j (k + 1) = shift (idx L i j k) 2 1) ∧
    ((1 ≤ i → idx L (i - 1) j k = shift (idx L i j k) 0 (-1)) ∧ (1 ≤ j → idx L i (j - 1) k = shift (idx L i j k) 1 (-1)) ∧
      (1 ≤ k → idx L i j (k - 1) = shift (idx L i j k) 2 (-1))) := by
  refine ⟨⟨?_, ?_, ?_⟩, ?_, ?_, ?_⟩
  · funext d; fin_cases d <;> simp [idx, shift]; omega
  · funext d; fin_cases d <;> simp [idx, shift]; omega
  · funext d; fin_cases d <;> simp [idx, shift]; omega
  · intro h; funext d; fin_cases d <;> simp [idx, shift, h]; omega
  · intro h; funext d; fin_cases d <;> simp [idx, shift, h]; omega
  · intro h; funext d; fin_cases d <;> simp [idx, shift, h]; omega

theorem get_at {L : Layout} {S : RankState K} {M : List K} (hS : Stores L S M) {i j k m p : ℕ} (h : In L ⟨i, j, k, m, p⟩) :
    M[L.off i j k m p]?.getD 0 = S p (m, idx L i j k) := by
  have := (stores_iff.1 hS).2 _ h
  unfold Layout.at at this
  rw [this]; rfl


theorem off_ne {L : Layout} {i j k m p i' j' k' m' p' : ℕ} (h : In L ⟨i, j, k, m, p⟩) (h' : In L ⟨i', j', k', m', p'⟩)
    (hne : ¬ (i = i' ∧ j = j' ∧ k = k' ∧ m = m' ∧ p = p')) : L.off i j k m p ≠ L.off i' j' k' m' p' := by
  intro e
  have := at_inj h h' e
  simp only [Cell.mk.injEq] at this
  exact hne this

/-- in-range indices are cells of the storage -/
theorem In.mk' {L : Layout} {i j k m p : ℕ} (hi : i < L.im 0) (hj : j < L.im 1) (hk : k < L.im 2) (hm : m < L.nc)
    (hp : p < L.np) : In L ⟨i, j, k, m, p⟩ := ⟨hi, hj, hk, hm, hp⟩

/-- the assignments of a thread write to different components of its cell -/
theorem launch_dst {L : Layout} {nx ny nz np m0 : ℕ} {body : ℕ → ℕ → ℕ → ℕ → List (Stmt K)}
    (hx : nx ≤ L.im 0) (hy : ny ≤ L.im 1) (hz : nz ≤ L.im 2) (hp : np ≤ L.np) (hm : m0 + 3 ≤ L.nc)
    (hb : ∀ i j k p, body i j k p = [] ∨ (body i j k p).map Stmt.dst =
      [L.off i j k m0 p, L.off i j k (m0 + 1) p, L.off i j k (m0 + 2) p]) :
    (launch4 nx ny nz np body).Pairwise fun s t => s.dst ≠ t.dst := by
  have hmem : ∀ i j k p, ∀ s ∈ body i j k p, ∃ d < 3, s.dst = L.off i j k (m0 + d) p := by
    intro i j k p s hs
    rcases hb i j k p with h | h
    · rw [h] at hs; exact absurd hs (by simp)
    · have := List.mem_map_of_mem (f := Stmt.dst) hs
      rw [h] at this
      simp only [List.mem_cons, List.not_mem_nil, or_false] at this
      rcases this with h | h | h
      · exact ⟨0, by omega, h⟩
      · exact ⟨1, by omega, h⟩
      · exact ⟨2, by omega, h⟩
  apply pairwise_launch4
  · intro i hi j hj k hk p hp'
    rcases hb i j k p with h | h
    · rw [h]; exact List.Pairwise.nil
    · have hI : ∀ d < 3, In L ⟨i, j, k, m0 + d, p⟩ := fun d hd =>
        In.mk' (by omega) (by omega) (by omega) (by omega) (by omega)
      have : ((body i j k p).map Stmt.dst).Pairwise (· ≠ ·) := by
        rw [h]
        simp only [List.pairwise_cons, List.mem_cons, List.not_mem_nil, or_false, forall_eq_or_imp, forall_eq,
          List.Pairwise.nil, and_true, IsEmpty.forall_iff, implies_true]
        exact ⟨⟨off_ne (hI 0 (by omega)) (hI 1 (by omega)) (by omega),
          off_ne (hI 0 (by omega)) (hI 2 (by omega)) (by omega)⟩,
          off_ne (hI 1 (by omega)) (hI 2 (by omega)) (by omega)⟩
      rwa [List.pairwise_map] at this
  · intro i hi j hj k hk p hp1 i' hi' j' hj' k' hk' p' hp2 hne s hs t ht
    obtain ⟨d, hd, e⟩ := hmem _ _ _ _ s hs
    obtain ⟨d', hd', e'⟩ := hmem _ _ _ _ t ht
    rw [e, e']
    refine off_ne (In.mk' (by omega) (by omega) (by omega) (by omega) (by omega))
      (In.mk' (by omega) (by omega) (by omega) (by omega) (by omega)) ?_
    rintro ⟨rfl, rfl, rfl, -, rfl⟩
    exact hne rfl

/-- component of `E` -/
def isE (m : ℕ) : Prop := 3 ≤ m ∧ m < 6
/-- component of `H` -/
def isH (m : ℕ) : Prop := 6 ≤ m ∧ m < 9

theorem region_E_xyz {g : GridP K} {L : Layout} (hinv : ∀ d, g.inv d = false) (hl : L.ldims = g.ldims)
    (hib : ∀ d, L.ibn d = 2) {i j k : ℕ} (hi : i < L.im 0) (hj : j < L.im 1) (hk : k < L.im 2) :
    Region g 1 2 (idx L i j k) ↔ i ≥ 1 ∧ j ≥ 1 ∧ k ≥ 1 := by
  rw [lt_im, hl, hib] at hi hj hk
  unfold Region
  constructor
  · intro h
    have h0 := h 0; have h1 := h 1; have h2 := h 2
    simp only [hinv, idx, hib, Bool.false_eq_true, if_false, Matrix.cons_val_zero, Matrix.cons_val_one,
      Matrix.cons_val] at h0 h1 h2
    omega
  · rintro ⟨h0, h1, h2⟩ d
    rw [hinv d, if_neg (by simp)]
    fin_cases d <;> simp [idx, hib] <;> omega

theorem push_E_xyz_spec {g : GridP K} {L : Layout} (hinv : ∀ d, g.inv d = false) (hl : L.ldims = g.ldims)
    (hib : ∀ d, L.ibn d = 2) (hnc : L.nc = 9) (fac : K) {S : RankState K} {M : List K} (hS : Stores L S M)
    {o : Option (List K)} {ls : List (List (Stmt K))} (hls : push_E_xyz g L fac = some ls) (hrun : Run [] ls M o) :
    ls.flatten.Pairwise Apart ∧ ∃ M', o = some M' ∧ Stores L (cpuE g fac S) M' := by
  classical
  have hg : GridOk g := fun d hd => by rw [hinv d] at hd; exact absurd hd (by simp)
  have hact : ∀ d, g.act d = true := fun d => by simp [GridP.act, hinv d]
  unfold push_E_xyz at hls
  split_ifs at hls with hnp hc
  · obtain rfl : [] = ls := by simpa using hls
    exact prog_stores (C := isE) hS hrun (by simp) (by simp) fun c hc => absurd hc.p (by omega)
  · simp only [Option.some.injEq] at hls
    subst hls
    have hin : ∀ {i j k m p}, i < L.im 0 → j < L.im 1 → k < L.im 2 → m < 9 → p < L.np → In L ⟨i, j, k, m, p⟩ :=
      fun hi hj hk hm hp => In.mk' hi hj hk (by omega) hp
    apply prog_stores (C := isE) hS hrun
    · rw [List.flatten_singleton]
      refine launch_dst (m0 := EX) le_rfl le_rfl le_rfl le_rfl (by simp [EX, hnc]) fun i j k p => ?_
      unfold E_xyz
      split_ifs
      · exact Or.inr rfl
      · exact Or.inl rfl
    · intro s hs
      rw [List.flatten_singleton, mem_launch4] at hs
      obtain ⟨i, hi, j, hj, k, hk, p, hp, hs⟩ := hs
      unfold E_xyz at hs
      split_ifs at hs with h1
      swap; · exact absurd hs (by simp)
      have hreg := (region_E_xyz hinv hl hib hi hj hk).2 h1
      obtain ⟨hi1, hj1, hk1⟩ := h1
      obtain ⟨-, s0, s1, s2⟩ := idx_shift L i j k
      have g0 : ∀ m < 9, M[L.off i j k m p]?.getD 0 = S p (m, idx L i j k) := fun m hm => get_at hS (hin hi hj hk hm hp)
      have gx : ∀ m < 9, M[L.off (i - 1) j k m p]?.getD 0 = S p (m, shift (idx L i j k) 0 (-1)) := fun m hm => by
        rw [get_at hS (hin (by omega) hj hk hm hp), s0 hi1]
      have gy : ∀ m < 9, M[L.off i (j - 1) k m p]?.getD 0 = S p (m, shift (idx L i j k) 1 (-1)) := fun m hm => by
        rw [get_at hS (hin hi (by omega) hk hm hp), s1 hj1]
      have gz : ∀ m < 9, M[L.off i j (k - 1) m p]?.getD 0 = S p (m, shift (idx L i j k) 2 (-1)) := fun m hm => by
        rw [get_at hS (hin hi hj (by omega) hm hp), s2 hk1]
      simp only [List.mem_cons, List.not_mem_nil, or_false] at hs
      rcases hs with rfl | rfl | rfl
      · refine ⟨⟨i, j, k, EX, p⟩, ⟨rfl, hin hi hj hk (by simp [EX]) hp, by simp [isE, EX], fun a => ?_⟩, fun a => a.elim0, ?_⟩
        · fin_cases a
          · exact Or.inl rfl
          · exact Or.inr ⟨⟨i, j, k, HX + 2, p⟩, hin hi hj hk (by simp [HX]) hp, by simp [isE, HX], rfl⟩
          · exact Or.inr ⟨⟨i, j - 1, k, HX + 2, p⟩, hin hi (by omega) hk (by simp [HX]) hp, by simp [isE, HX], rfl⟩
          · exact Or.inr ⟨⟨i, j, k, HX + 1, p⟩, hin hi hj hk (by simp [HX]) hp, by simp [isE, HX], rfl⟩
          · exact Or.inr ⟨⟨i, j, k - 1, HX + 1, p⟩, hin hi hj (by omega) (by simp [HX]) hp, by simp [isE, HX], rfl⟩
          · exact Or.inr ⟨⟨i, j, k, JXI, p⟩, hin hi hj hk (by simp [JXI]) hp, by simp [isE, JXI], rfl⟩
        · have e := cpuE_E g hg fac S p 0 (idx L i j k)
          rw [if_pos hreg] at e
          refine Eq.trans ?_ e.symm
          simp only [Stmt.value, curlH, dB, hact, if_true]
          change M[L.off i j k EX p]?.getD 0 + (fac * g.dt / g.dx 1 * (M[L.off i j k (HX + 2) p]?.getD 0 - M[L.off i (j - 1) k (HX + 2) p]?.getD 0) -
            fac * g.dt / g.dx 2 * (M[L.off i j k (HX + 1) p]?.getD 0 - M[L.off i j (k - 1) (HX + 1) p]?.getD 0) - fac * g.dt * M[L.off i j k JXI p]?.getD 0) =
            S p (EX, _) + fac * g.dt * ((S p (HX + 2, _) - S p (HX + 2, shift _ 1 (-1))) / g.dx 1 -
              (S p (HX + 1, _) - S p (HX + 1, shift _ 2 (-1))) / g.dx 2 - S p (JXI, _))
          rw [g0 _ (by simp [EX]), g0 _ (by simp [HX]), g0 _ (by simp [HX]), g0 _ (by simp [JXI]), gy _ (by simp [HX]),
            gz _ (by simp [HX])]
          ring
      · refine ⟨⟨i, j, k, EX + 1, p⟩, ⟨rfl, hin hi hj hk (by simp [EX]) hp, by simp [isE, EX], fun a => ?_⟩, fun a => a.elim0, ?_⟩
        · fin_cases a
          · exact Or.inl rfl
          · exact Or.inr ⟨⟨i, j, k, HX, p⟩, hin hi hj hk (by simp [HX]) hp, by simp [isE, HX], rfl⟩
          · exact Or.inr ⟨⟨i, j, k - 1, HX, p⟩, hin hi hj (by omega) (by simp [HX]) hp, by simp [isE, HX], rfl⟩
          · exact Or.inr ⟨⟨i, j, k, HX + 2, p⟩, hin hi hj hk (by simp [HX]) hp, by simp [isE, HX], rfl⟩
          · exact Or.inr ⟨⟨i - 1, j, k, HX + 2, p⟩, hin (by omega) hj hk (by simp [HX]) hp, by simp [isE, HX], rfl⟩
          · exact Or.inr ⟨⟨i, j, k, JXI + 1, p⟩, hin hi hj hk (by simp [JXI]) hp, by simp [isE, JXI], rfl⟩
        · have e := cpuE_E g hg fac S p 1 (idx L i j k)
          rw [if_pos hreg] at e
          refine Eq.trans ?_ e.symm
          simp only [Stmt.value, curlH, dB, hact, if_true]
          change M[L.off i j k (EX + 1) p]?.getD 0 + (fac * g.dt / g.dx 2 * (M[L.off i j k HX p]?.getD 0 - M[L.off i j (k - 1) HX p]?.getD 0) -
            fac * g.dt / g.dx 0 * (M[L.off i j k (HX + 2) p]?.getD 0 - M[L.off (i - 1) j k (HX + 2) p]?.getD 0) - fac * g.dt * M[L.off i j k (JXI + 1) p]?.getD 0) =
            S p (EX + 1, _) + fac * g.dt * ((S p (HX, _) - S p (HX, shift _ 2 (-1))) / g.dx 2 -
              (S p (HX + 2, _) - S p (HX + 2, shift _ 0 (-1))) / g.dx 0 - S p (JXI + 1, _))
          rw [g0 _ (by simp [EX]), g0 _ (by simp [HX]), g0 _ (by simp [HX]), g0 _ (by simp [JXI]), gx _ (by simp [HX]),
            gz _ (by simp [HX])]
          ring
      · refine ⟨⟨i, j, k, EX + 2, p⟩, ⟨rfl, hin hi hj hk (by simp [EX]) hp, by simp [isE, EX], fun a => ?_⟩, fun a => a.elim0, ?_⟩
        · fin_cases a
          · exact Or.inl rfl
          · exact Or.inr ⟨⟨i, j, k, HX + 1, p⟩, hin hi hj hk (by simp [HX]) hp, by simp [isE, HX], rfl⟩
          · exact Or.inr ⟨⟨i - 1, j, k, HX + 1, p⟩, hin (by omega) hj hk (by simp [HX]) hp, by simp [isE, HX], rfl⟩
          · exact Or.inr ⟨⟨i, j, k, HX, p⟩, hin hi hj hk (by simp [HX]) hp, by simp [isE, HX], rfl⟩
          · exact Or.inr ⟨⟨i, j - 1, k, HX, p⟩, hin hi (by omega) hk (by simp [HX]) hp, by simp [isE, HX], rfl⟩
          · exact Or.inr ⟨⟨i, j, k, JXI + 2, p⟩, hin hi hj hk (by simp [JXI]) hp, by simp [isE, JXI], rfl⟩
        · have e := cpuE_E g hg fac S p 2 (idx L i j k)
          rw [if_pos hreg] at e
          refine Eq.trans ?_ e.symm
          simp only [Stmt.value, curlH, dB, hact, if_true]
          change M[L.off i j k (EX + 2) p]?.getD 0 + (fac * g.dt / g.dx 0 * (M[L.off i j k (HX + 1) p]?.getD 0 - M[L.off (i - 1) j k (HX + 1) p]?.getD 0) -
            fac * g.dt / g.dx 1 * (M[L.off i j k HX p]?.getD 0 - M[L.off i (j - 1) k HX p]?.getD 0) - fac * g.dt * M[L.off i j k (JXI + 2) p]?.getD 0) =
            S p (EX + 2, _) + fac * g.dt * ((S p (HX + 1, _) - S p (HX + 1, shift _ 0 (-1))) / g.dx 0 -
              (S p (HX, _) - S p (HX, shift _ 1 (-1))) / g.dx 1 - S p (JXI + 2, _))
          rw [g0 _ (by simp [EX]), g0 _ (by simp [HX]), g0 _ (by simp [HX]), g0 _ (by simp [JXI]), gx _ (by simp [HX]),
            gy _ (by simp [HX])]
          ring
    · rintro ⟨i, j, k, m, p⟩ hc'
      have hi := hc'.i; have hj := hc'.j; have hk := hc'.k; have hp := hc'.p
      dsimp only at hi hj hk hp
      by_cases hm : ∃ d : Fin 3, m = EX + d
      · obtain ⟨d, rfl⟩ := hm
        by_cases h1 : i ≥ 1 ∧ j ≥ 1 ∧ k ≥ 1
        · left
          have : ∃ s ∈ E_xyz L (fac * g.dt) (fun d => fac * g.dt / g.dx d) i j k p, s.dst = L.off i j k (EX + d) p := by
            unfold E_xyz
            rw [if_pos h1]
            fin_cases d
            · exact ⟨_, by simp only [List.mem_cons]; exact Or.inl rfl, rfl⟩
            · exact ⟨_, by simp only [List.mem_cons]; exact Or.inr (Or.inl rfl), rfl⟩
            · exact ⟨_, by simp only [List.mem_cons]; exact Or.inr (Or.inr (Or.inl rfl)), rfl⟩
          obtain ⟨s, hs, e⟩ := this
          refine ⟨s, ?_, e⟩
          rw [List.flatten_singleton, mem_launch4]
          exact ⟨i, hi, j, hj, k, hk, p, hp, hs⟩
        · right
          have e := cpuE_E g hg fac S p d (idx L i j k)
          rw [if_neg (fun h => h1 ((region_E_xyz hinv hl hib hi hj hk).1 h)), add_zero] at e
          exact e
      · right
        exact cpuE_rest g hg fac S p m (fun d e => hm ⟨d, e⟩) _

end Psc.CudaFlds
