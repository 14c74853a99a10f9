import Verif.Spec.Xdmf
import Verif.Lemmas.Writer
import Mathlib.Tactic.Ring
import Mathlib.Tactic.LinearCombination
import Mathlib.Tactic.FinCases
import Mathlib.Tactic.Positivity

/-! Lemmas for C79: memory of a field, names, data sets -/

namespace Psc.Xdmf

open Domain Writer

variable {K α : Type}

/-! ## Memory -/

/-- position of a value, for a field in the original order without ghost points -/
def pos (ldims : P3) (nc : ℕ) (i : Fin 3 → ℤ) (m p : ℤ) : ℤ :=
  i 0 + ldims 0 * (i 1 + ldims 1 * (i 2 + ldims 2 * (m + nc * p)))

theorem fldSetup_eq {ldims : P3} {np nc : ℕ} {old : ℤ → α} (hc : 0 < nc) (hp : 0 < np)
    (hl : ldims 0 * ldims 1 * ldims 2 * nc * np < 2 ^ 31) :
    ∃ f, fldSetup ldims np nc 0 false false old = some f ∧ f.ghostDims = ![(ldims 0 : ℤ), ldims 1, ldims 2, nc, np] ∧
      f.ghostOffs = (fun _ => 0) ∧ f.nd.len = ldims 0 * ldims 1 * ldims 2 * nc * np ∧
      ∀ i : Fin 5 → ℤ, f.nd.idx i = pos ldims nc ![i 0, i 1, i 2] (i 3) (i 4) := by
  have hd : (fun d : Fin 5 => ![(ldims 0 : ℤ), ldims 1, ldims 2, nc, np] d +
      2 * if h : d.val < 3 then (if ldims ⟨d.val, h⟩ > 1 then ((0 : ℕ) : ℤ) else 0) else 0) =
      ![(ldims 0 : ℤ), ldims 1, ldims 2, nc, np] := by
    funext d; split_ifs <;> simp
  have ho : (fun d : Fin 5 => 0 - if h : d.val < 3 then (if ldims ⟨d.val, h⟩ > 1 then ((0 : ℕ) : ℤ) else 0) else 0) =
      fun _ => 0 := by
    funext d; split_ifs <;> simp
  unfold fldSetup
  rw [if_pos ⟨hc, hp⟩]
  dsimp only
  rw [hd, ho]
  have hlen : (ndSetup ![(ldims 0 : ℤ), ldims 1, ldims 2, nc, np] (fun _ => 0) (fldPerm false false)).len =
      ldims 0 * ldims 1 * ldims 2 * nc * np := rfl
  rw [if_pos (by rw [hlen]; exact_mod_cast hl)]
  refine ⟨_, rfl, rfl, rfl, rfl, fun i => ?_⟩
  have h5 : List.finRange 5 = [0, 1, 2, 3, 4] := by decide
  have hs : ndStride ![(ldims 0 : ℤ), ldims 1, ldims 2, nc, np] (fldPerm false false) =
      ![1, (ldims 0 : ℤ), ldims 0 * ldims 1, ldims 0 * ldims 1 * ldims 2, ldims 0 * ldims 1 * ldims 2 * nc] := by
    unfold ndStride
    rw [h5]
    funext d
    fin_cases d <;> simp [fldPerm, Function.update, List.filter] <;> ring
  simp only [Nd.idx, ndSetup, hs, pos]
  show (i 4 * (ldims 0 * ldims 1 * ldims 2 * nc : ℤ) + i 3 * (ldims 0 * ldims 1 * ldims 2 : ℤ) + i 2 * (ldims 0 * ldims 1 : ℤ) +
    i 1 * (ldims 0 : ℤ) + i 0 * 1) - _ = i 0 + ldims 0 * (i 1 + ldims 1 * (i 2 + ldims 2 * (i 3 + nc * i 4)))
  simp only [zero_mul, add_zero, sub_zero]
  ring

theorem pair_inj {a b c d L : ℤ} (ha : 0 ≤ a ∧ a < L) (hb : 0 ≤ b ∧ b < L) (e : a + L * c = b + L * d) : a = b ∧ c = d := by
  have h1 : c = d := by
    have x := congrArg (· / L) e
    have hL : L ≠ 0 := by omega
    simp only [Int.add_mul_ediv_left _ _ hL, Int.ediv_eq_zero_of_lt ha.1 ha.2, Int.ediv_eq_zero_of_lt hb.1 hb.2, zero_add] at x
    exact x
  subst h1
  exact ⟨by omega, rfl⟩

theorem pos_inj {ldims : P3} {nc : ℕ} {i j : Fin 3 → ℤ} {m n p q : ℤ} (hi : ∀ d, 0 ≤ i d ∧ i d < ldims d)
    (hj : ∀ d, 0 ≤ j d ∧ j d < ldims d) (hm : 0 ≤ m ∧ m < nc) (hn : 0 ≤ n ∧ n < nc)
    (e : pos ldims nc i m p = pos ldims nc j n q) : i = j ∧ m = n ∧ p = q := by
  unfold pos at e
  obtain ⟨e0, e⟩ := pair_inj (hi 0) (hj 0) e
  obtain ⟨e1, e⟩ := pair_inj (hi 1) (hj 1) e
  obtain ⟨e2, e⟩ := pair_inj (hi 2) (hj 2) e
  obtain ⟨e3, e⟩ := pair_inj hm hn e
  refine ⟨?_, e3, e⟩
  funext d
  fin_cases d
  · exact e0
  · exact e1
  · exact e2

theorem pair_range {a b L N : ℤ} (ha : 0 ≤ a ∧ a < L) (hb : 0 ≤ b ∧ b < N) : 0 ≤ a + L * b ∧ a + L * b < L * N := by
  constructor
  · have := mul_nonneg (show 0 ≤ L by omega) hb.1
    omega
  · have : L * (b + 1) ≤ L * N := mul_le_mul_of_nonneg_left (by omega) (by omega)
    rw [mul_add] at this
    omega

theorem pos_range {ldims : P3} {nc np : ℕ} {i : Fin 3 → ℤ} {m p : ℤ} (hi : ∀ d, 0 ≤ i d ∧ i d < ldims d)
    (hm : 0 ≤ m ∧ m < nc) (hp : 0 ≤ p ∧ p < np) :
    0 ≤ pos ldims nc i m p ∧ pos ldims nc i m p < ldims 0 * ldims 1 * ldims 2 * nc * np := by
  have h := pair_range (hi 0) (pair_range (hi 1) (pair_range (hi 2) (pair_range hm hp)))
  unfold pos
  refine ⟨h.1, h.2.trans_eq ?_⟩
  ring

/-- a list of stores to different places -/
theorem stores {β : Type} (idx : β → Fin 5 → ℤ) (v : β → α) : ∀ (l : List β) (f : Fld α), l.Nodup →
    (∀ x ∈ l, 0 ≤ f.nd.idx (idx x) ∧ f.nd.idx (idx x) < f.nd.len) →
    (∀ x ∈ l, ∀ y ∈ l, f.nd.idx (idx x) = f.nd.idx (idx y) → x = y) →
    ∃ f', l.foldlM (fun f x => f.set (idx x) (v x)) f = some f' ∧ f'.nd = f.nd ∧ f'.ghostDims = f.ghostDims ∧
      f'.ghostOffs = f.ghostOffs ∧ (∀ x ∈ l, f'.mem (f.nd.idx (idx x)) = v x) ∧
      ∀ n, (∀ x ∈ l, f.nd.idx (idx x) ≠ n) → f'.mem n = f.mem n := by
  intro l
  induction l with
  | nil => intro f _ _ _; exact ⟨f, rfl, rfl, rfl, rfl, by simp, fun _ _ => rfl⟩
  | cons x l ih =>
    intro f hn hr hi
    have hx := hr x List.mem_cons_self
    have hset : f.set (idx x) (v x) = some { f with mem := Function.update f.mem (f.nd.idx (idx x)) (v x) } := by
      unfold Fld.set; simp only; rw [if_pos hx]
    obtain ⟨f', e, e1, e2, e3, e4, e5⟩ := ih { f with mem := Function.update f.mem (f.nd.idx (idx x)) (v x) }
      (List.nodup_cons.1 hn).2 (fun y hy => hr y (List.mem_cons_of_mem _ hy))
      (fun y hy z hz => hi y (List.mem_cons_of_mem _ hy) z (List.mem_cons_of_mem _ hz))
    refine ⟨f', ?_, e1, e2, e3, ?_, ?_⟩
    · rw [List.foldlM_cons, hset]; exact e
    · intro y hy
      rcases List.mem_cons.1 hy with rfl | hy
      · rw [e5 _ (fun z hz hzy => (List.nodup_cons.1 hn).1 (by
          rw [← hi z (List.mem_cons_of_mem _ hz) y List.mem_cons_self hzy]; exact hz))]
        simp
      · exact e4 y hy
    · intro n hn'
      rw [e5 n (fun y hy => hn' y (List.mem_cons_of_mem _ hy))]
      exact Function.update_of_ne (hn' x List.mem_cons_self).symm _ _

theorem mem_copyIdx {ldims : P3} {np nc : ℕ} {x : ℕ × ℕ × (Fin 3 → ℕ)} :
    x ∈ copyIdx ldims np nc ↔ x.1 < np ∧ x.2.1 < nc ∧ ∀ d, x.2.2 d < ldims d := by
  obtain ⟨p, m, i⟩ := x
  simp only [copyIdx, List.mem_flatMap, List.mem_map, List.mem_range, Prod.mk.injEq]
  constructor
  · rintro ⟨p', hp, m', hm, k, hk, j, hj, a, ha, rfl, rfl, rfl⟩
    refine ⟨hp, hm, fun d => ?_⟩
    fin_cases d
    · exact ha
    · exact hj
    · exact hk
  · rintro ⟨hp, hm, h⟩
    refine ⟨p, hp, m, hm, i 2, h 2, i 1, h 1, i 0, h 0, rfl, rfl, ?_⟩
    funext d
    fin_cases d <;> rfl

theorem nodup_flatMap_range {β : Type} (n : ℕ) (f : ℕ → List β) (h1 : ∀ i < n, (f i).Nodup)
    (h2 : ∀ i < n, ∀ j < n, ∀ x, x ∈ f i → x ∈ f j → i = j) : ((List.range n).flatMap f).Nodup := by
  induction n with
  | zero => simp
  | succ n ih =>
    rw [List.range_succ, List.flatMap_append, List.nodup_append]
    refine ⟨ih (fun i hi => h1 i (by omega)) (fun i hi j hj => h2 i (by omega) j (by omega)), by simpa using h1 n (by omega), ?_⟩
    rintro x hx y hy rfl
    obtain ⟨i, hi, hxi⟩ := List.mem_flatMap.1 hx
    simp only [List.flatMap_cons, List.flatMap_nil, List.append_nil] at hy
    have := h2 i (by have := List.mem_range.1 hi; omega) n (by omega) x hxi hy
    have := List.mem_range.1 hi
    omega

theorem copyIdx_nodup (ldims : P3) (np nc : ℕ) : (copyIdx ldims np nc).Nodup := by
  unfold copyIdx
  refine nodup_flatMap_range _ _ (fun p _ => nodup_flatMap_range _ _ (fun m _ => nodup_flatMap_range _ _ (fun k _ =>
    nodup_flatMap_range _ _ (fun j _ => ?_) ?_) ?_) ?_) ?_
  · refine List.Nodup.map (fun a b h => ?_) List.nodup_range
    exact congrFun (Prod.mk.inj (Prod.mk.inj h).2).2 0
  all_goals
    intro a _ b _ x ha hb
    simp only [List.mem_flatMap, List.mem_map, List.mem_range] at ha hb
  · obtain ⟨i, hi, rfl⟩ := ha
    obtain ⟨i', hi', e⟩ := hb
    exact (congrFun (Prod.mk.inj (Prod.mk.inj e).2).2 1).symm
  · obtain ⟨j, hj, i, hi, rfl⟩ := ha
    obtain ⟨j', hj', i', hi', e⟩ := hb
    exact (congrFun (Prod.mk.inj (Prod.mk.inj e).2).2 2).symm
  · obtain ⟨k, hk, j, hj, i, hi, rfl⟩ := ha
    obtain ⟨k', hk', j', hj', i', hi', e⟩ := hb
    exact (Prod.mk.inj (Prod.mk.inj e).2).1.symm
  · obtain ⟨m, hm, k, hk, j, hj, i, hi, rfl⟩ := ha
    obtain ⟨m', hm', k', hk', j', hj', i', hi', e⟩ := hb
    exact (Prod.mk.inj e).1.symm

/-- after `write` has copied, the memory of the new field has the values where they belong -/
theorem copied {ldims : P3} {np nc : ℕ} {old : ℤ → α} (e : ℕ → ℕ → (Fin 3 → ℕ) → α) (hc : 0 < nc) (hp : 0 < np)
    (hl : ldims 0 * ldims 1 * ldims 2 * nc * np < 2 ^ 31) :
    ∃ f f', fldSetup ldims np nc 0 false false old = some f ∧ copyIn ldims np nc e f = some f' ∧
      f'.ghostDims = ![(ldims 0 : ℤ), ldims 1, ldims 2, nc, np] ∧ f'.ghostOffs = (fun _ => 0) ∧
      (∀ i : Fin 5 → ℤ, f'.nd.idx i = pos ldims nc ![i 0, i 1, i 2] (i 3) (i 4)) ∧
      ∀ p m (i : Fin 3 → ℕ), p < np → m < nc → (∀ d, i d < ldims d) → f'.mem (pos ldims nc (fun d => i d) m p) = e p m i := by
  obtain ⟨f, h1, h2, h3, h4, h5⟩ := fldSetup_eq (old := old) hc hp hl
  have hI : ∀ x : ℕ × ℕ × (Fin 3 → ℕ), f.nd.idx ![x.2.2 0, x.2.2 1, x.2.2 2, x.2.1, x.1] =
      pos ldims nc (fun d => x.2.2 d) x.2.1 x.1 := by
    intro x; rw [h5]; rfl
  obtain ⟨f', e1, e2, e3, e4, e5, -⟩ := stores (fun x : ℕ × ℕ × (Fin 3 → ℕ) => ![x.2.2 0, x.2.2 1, x.2.2 2, x.2.1, x.1])
    (fun x => e x.1 x.2.1 x.2.2) (copyIdx ldims np nc) f (copyIdx_nodup _ _ _) (by
      intro x hx
      obtain ⟨a, b, c⟩ := mem_copyIdx.1 hx
      rw [hI, h4]
      exact pos_range (fun d => ⟨by omega, by exact_mod_cast c d⟩) ⟨by omega, by exact_mod_cast b⟩ ⟨by omega, by exact_mod_cast a⟩)
    (by
      intro x hx y hy hxy
      obtain ⟨a, b, c⟩ := mem_copyIdx.1 hx
      obtain ⟨a', b', c'⟩ := mem_copyIdx.1 hy
      rw [hI, hI] at hxy
      obtain ⟨u, v, w⟩ := pos_inj (fun d => ⟨by omega, by exact_mod_cast c d⟩) (fun d => ⟨by omega, by exact_mod_cast c' d⟩)
        ⟨by omega, by exact_mod_cast b⟩ ⟨by omega, by exact_mod_cast b'⟩ hxy
      refine Prod.ext (by exact_mod_cast w) (Prod.ext (by exact_mod_cast v) (funext fun d => ?_))
      have := congrFun u d
      simpa using this)
  refine ⟨f, f', h1, e1, by rw [e3, h2], by rw [e4, h3], fun i => by rw [e2, h5], fun p m i hp hm hi => ?_⟩
  have := e5 (p, m, i) (mem_copyIdx.2 ⟨hp, hm, hi⟩)
  rw [hI] at this
  exact this

end Psc.Xdmf
