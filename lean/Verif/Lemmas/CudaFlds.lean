import Verif.Spec.CudaFlds
import Verif.Lemmas.FieldStep
import Mathlib.Tactic.Linarith
import Mathlib.Tactic.Ring
import Mathlib.Tactic.FinCases

/-!
# Launches of independent assignments, and where things are in memory
-/

namespace Psc.CudaFlds

open Fields FieldStep Spec.CudaFlds Ddc

/-! ### Layout -/

theorem digits {a a' n b b' : ℕ} (h : a + n * b = a' + n * b') (ha : a < n) (ha' : a' < n) : a = a' ∧ b = b' := by
  have h1 := congrArg (· % n) h
  have h2 := congrArg (· / n) h
  simp only [Nat.add_mul_mod_self_left, Nat.mod_eq_of_lt ha, Nat.mod_eq_of_lt ha'] at h1
  have hn : 0 < n := by omega
  simp only [Nat.add_mul_div_left _ _ hn, Nat.div_eq_of_lt ha, Nat.div_eq_of_lt ha', Nat.zero_add] at h2
  exact ⟨h1, h2⟩

theorem digits_lt {a n b c : ℕ} (ha : a < n) (hb : b < c) : a + n * b < n * c := by
  have : n * (b + 1) ≤ n * c := Nat.mul_le_mul_left n hb
  rw [Nat.mul_add, Nat.mul_one] at this
  omega

/-- a cell of the storage: indices, component, patch -/
structure Cell where
  i : ℕ
  j : ℕ
  k : ℕ
  m : ℕ
  p : ℕ

/-- the cell is in the storage -/
structure In (L : Layout) (c : Cell) : Prop where
  i : c.i < L.im 0
  j : c.j < L.im 1
  k : c.k < L.im 2
  m : c.m < L.nc
  p : c.p < L.np

/-- place of a cell -/
def Layout.at (L : Layout) (c : Cell) : ℕ := L.off c.i c.j c.k c.m c.p

theorem at_inj {L : Layout} {c c' : Cell} (h : In L c) (h' : In L c') (e : L.at c = L.at c') : c = c' := by
  obtain ⟨i, j, k, m, p⟩ := c
  obtain ⟨i', j', k', m', p'⟩ := c'
  unfold Layout.at Layout.off at e
  obtain ⟨e0, e⟩ := digits e h.i h'.i
  obtain ⟨e1, e⟩ := digits e h.j h'.j
  obtain ⟨e2, e⟩ := digits e h.k h'.k
  obtain ⟨e3, e4⟩ := digits e h.m h'.m
  dsimp only at e0 e1 e2 e3 e4
  subst e0 e1 e2 e3 e4
  rfl

theorem at_lt {L : Layout} {c : Cell} (h : In L c) : L.at c < L.size :=
  digits_lt h.i (digits_lt h.j (digits_lt h.k (digits_lt h.m h.p)))

variable {K : Type} [Field K]

/-! ### Independent assignments -/

/-- all accesses of the assignment are inside -/
def Stmt.Ok (R : List K) (N : ℕ) (s : Stmt K) : Prop := s.dst < N ∧ (∀ i, s.src i < N) ∧ ∀ i, s.rsrc i < R.length

/-- the value the assignment writes, read from `M` -/
def Stmt.value (R M : List K) (s : Stmt K) : K := s.val (fun i => M[s.src i]?.getD 0) fun i => R[s.rsrc i]?.getD 0

theorem exec_eq {R M : List K} {s : Stmt K} (h : s.Ok R M.length) :
    s.exec R M = some (M.set s.dst (s.value R M)) := by
  unfold Stmt.exec
  rw [dif_pos (show s.dst < M.length ∧ (∀ i, s.src i < M.length) ∧ (∀ i, s.rsrc i < R.length) from h)]
  unfold Stmt.value
  congr 3
  · funext i; rw [List.getElem?_eq_getElem (h.2.1 i)]; rfl
  · funext i; rw [List.getElem?_eq_getElem (h.2.2 i)]; rfl

theorem Apart.symm {s t : Stmt K} (h : Apart s t) : Apart t s := ⟨h.1.symm, h.2.2, h.2.1⟩

theorem execAll_spec (R : List K) (l : List (Stmt K)) (M : List K) (hb : ∀ s ∈ l, s.Ok R M.length) (hI : l.Pairwise Apart) :
    ∃ M', execAll R l M = some M' ∧ M'.length = M.length ∧ (∀ s ∈ l, M'[s.dst]? = some (s.value R M)) ∧
      ∀ a, (∀ s ∈ l, a ≠ s.dst) → M'[a]? = M[a]? := by
  induction l generalizing M with
  | nil => exact ⟨M, rfl, rfl, by simp, by simp⟩
  | cons s l ih =>
    rw [List.pairwise_cons] at hI
    have hs := hb s List.mem_cons_self
    obtain ⟨M', e, hl, hv, ho⟩ := ih (M.set s.dst (s.value R M))
      (fun t ht => by rw [List.length_set]; exact hb t (List.mem_cons_of_mem _ ht)) hI.2
    refine ⟨M', ?_, by rw [hl, List.length_set], ?_, ?_⟩
    · unfold execAll
      rw [List.foldlM_cons, exec_eq hs]
      exact e
    · intro t ht
      rw [List.mem_cons] at ht
      rcases ht with rfl | ht
      · rw [ho _ fun t' ht' => (hI.1 t' ht').1, List.getElem?_set_self hs.1]
      · rw [hv t ht]
        congr 1
        unfold Stmt.value
        congr 1
        funext i
        rw [List.getElem?_set_ne fun e => (hI.1 t ht).2.1 i e.symm]
    · intro a ha
      rw [ho a fun t ht => ha t (List.mem_cons_of_mem _ ht), List.getElem?_set_ne fun e => ha s List.mem_cons_self e.symm]

/-- the launches of a race free sequence do the same as all assignments together -/
theorem run_spec {R : List K} {ls : List (List (Stmt K))} {M : List K} {o : Option (List K)} (h : Run R ls M o)
    (hb : ∀ s ∈ ls.flatten, s.Ok R M.length) (hI : ls.flatten.Pairwise Apart) :
    ∃ M', o = some M' ∧ M'.length = M.length ∧ (∀ s ∈ ls.flatten, M'[s.dst]? = some (s.value R M)) ∧
      ∀ a, (∀ s ∈ ls.flatten, a ≠ s.dst) → M'[a]? = M[a]? := by
  induction h with
  | nil M => exact ⟨M, rfl, rfl, by simp, by simp⟩
  | fail l ls l' M hp h =>
    rw [List.flatten_cons, List.pairwise_append] at hI
    obtain ⟨M', e, -⟩ := execAll_spec R l' M (fun s hs => hb s (by
      rw [List.flatten_cons, List.mem_append]; exact Or.inl (hp.mem_iff.1 hs)))
      ((hp.pairwise_iff fun h => Apart.symm h).2 hI.1)
    rw [h] at e
    exact absurd e (by simp)
  | cons l ls l' M M' o hp h _ ih =>
    rw [List.flatten_cons, List.pairwise_append] at hI
    have hb1 : ∀ s ∈ l, s.Ok R M.length := fun s hs => hb s (by
      rw [List.flatten_cons, List.mem_append]; exact Or.inl hs)
    have hb2 : ∀ s ∈ ls.flatten, s.Ok R M.length := fun s hs => hb s (by
      rw [List.flatten_cons, List.mem_append]; exact Or.inr hs)
    obtain ⟨M₁, e, hl, hv, ho⟩ := execAll_spec R l' M (fun s hs => hb1 s (hp.mem_iff.1 hs))
      ((hp.pairwise_iff fun h => Apart.symm h).2 hI.1)
    rw [h] at e
    obtain rfl : M' = M₁ := by simpa using e
    obtain ⟨M₂, e2, hl2, hv2, ho2⟩ := ih (fun s hs => by rw [hl]; exact hb2 s hs) hI.2.1
    refine ⟨M₂, e2, by rw [hl2, hl], ?_, ?_⟩
    · intro s hs
      rw [List.flatten_cons, List.mem_append] at hs
      rcases hs with hs | hs
      · rw [ho2 _ fun t ht => (hI.2.2 s hs t ht).1]
        exact hv s (hp.mem_iff.2 hs)
      · rw [hv2 s hs]
        congr 1
        unfold Stmt.value
        congr 1
        funext i
        rw [ho _ fun t ht => (hI.2.2 t (hp.mem_iff.1 ht) s hs).2.1 i]
    · intro a ha
      rw [ho2 a fun t ht => ha t (by rw [List.flatten_cons, List.mem_append]; exact Or.inr ht),
        ho a fun t ht => ha t (by rw [List.flatten_cons, List.mem_append]; exact Or.inl (hp.mem_iff.1 ht))]

/-- launches can be executed -/
theorem run_exists (R : List K) (ls : List (List (Stmt K))) (M : List K) : ∃ o, Run R ls M o := by
  induction ls generalizing M with
  | nil => exact ⟨_, .nil M⟩
  | cons l ls ih =>
    cases h : execAll R l M with
    | none => exact ⟨none, .fail l ls l M (List.Perm.refl _) h⟩
    | some M' =>
      obtain ⟨o, ho⟩ := ih M'
      exact ⟨o, .cons l ls l M M' o (List.Perm.refl _) h ho⟩

/-! ### Launches over all indices -/

theorem mem_launch4 {nx ny nz np : ℕ} {body : ℕ → ℕ → ℕ → ℕ → List (Stmt K)} {s : Stmt K} :
    s ∈ launch4 nx ny nz np body ↔ ∃ i < nx, ∃ j < ny, ∃ k < nz, ∃ p < np, s ∈ body i j k p := by
  simp only [launch4, List.mem_flatMap, List.mem_range]
  constructor
  · rintro ⟨p, hp, k, hk, j, hj, i, hi, h⟩; exact ⟨i, hi, j, hj, k, hk, p, hp, h⟩
  · rintro ⟨i, hi, j, hj, k, hk, p, hp, h⟩; exact ⟨p, hp, k, hk, j, hj, i, hi, h⟩

theorem pairwise_launch4 {nx ny nz np : ℕ} {body : ℕ → ℕ → ℕ → ℕ → List (Stmt K)} {r : Stmt K → Stmt K → Prop}
    (h1 : ∀ i < nx, ∀ j < ny, ∀ k < nz, ∀ p < np, (body i j k p).Pairwise r)
    (h2 : ∀ i < nx, ∀ j < ny, ∀ k < nz, ∀ p < np, ∀ i' < nx, ∀ j' < ny, ∀ k' < nz, ∀ p' < np,
      (i, j, k, p) ≠ (i', j', k', p') → ∀ s ∈ body i j k p, ∀ t ∈ body i' j' k' p', r s t) :
    (launch4 nx ny nz np body).Pairwise r := by
  have hr : ∀ n, (List.range n).Pairwise fun a b => a ≠ b := fun n => List.nodup_range
  unfold launch4
  rw [List.pairwise_flatMap]
  refine ⟨fun p hp => ?_, (hr np).imp_of_mem fun {p p'} hp hp' hne => ?_⟩
  · rw [List.pairwise_flatMap]
    refine ⟨fun k hk => ?_, (hr nz).imp_of_mem fun {k k'} hk hk' hne => ?_⟩
    · rw [List.pairwise_flatMap]
      refine ⟨fun j hj => ?_, (hr ny).imp_of_mem fun {j j'} hj hj' hne => ?_⟩
      · rw [List.pairwise_flatMap]
        refine ⟨fun i hi => ?_, (hr nx).imp_of_mem fun {i i'} hi hi' hne => ?_⟩
        · exact h1 i (List.mem_range.1 hi) j (List.mem_range.1 hj) k (List.mem_range.1 hk) p (List.mem_range.1 hp)
        · exact h2 i (List.mem_range.1 hi) j (List.mem_range.1 hj) k (List.mem_range.1 hk) p (List.mem_range.1 hp)
            i' (List.mem_range.1 hi') j (List.mem_range.1 hj) k (List.mem_range.1 hk) p (List.mem_range.1 hp)
            (fun e => hne (congrArg (·.1) e))
      · intro s hs t ht
        simp only [List.mem_flatMap, List.mem_range] at hs ht
        obtain ⟨i, hi, hs⟩ := hs
        obtain ⟨i', hi', ht⟩ := ht
        exact h2 i hi j (List.mem_range.1 hj) k (List.mem_range.1 hk) p (List.mem_range.1 hp)
          i' hi' j' (List.mem_range.1 hj') k (List.mem_range.1 hk) p (List.mem_range.1 hp)
          (fun e => hne (congrArg (·.2.1) e)) s hs t ht
    · intro s hs t ht
      simp only [List.mem_flatMap, List.mem_range] at hs ht
      obtain ⟨j, hj, i, hi, hs⟩ := hs
      obtain ⟨j', hj', i', hi', ht⟩ := ht
      exact h2 i hi j hj k (List.mem_range.1 hk) p (List.mem_range.1 hp)
        i' hi' j' hj' k' (List.mem_range.1 hk') p (List.mem_range.1 hp)
        (fun e => hne (congrArg (·.2.2.1) e)) s hs t ht
  · intro s hs t ht
    simp only [List.mem_flatMap, List.mem_range] at hs ht
    obtain ⟨k, hk, j, hj, i, hi, hs⟩ := hs
    obtain ⟨k', hk', j', hj', i', hi', ht⟩ := ht
    exact h2 i hi j hj k hk p (List.mem_range.1 hp) i' hi' j' hj' k' hk' p' (List.mem_range.1 hp')
      (fun e => hne (congrArg (·.2.2.2) e)) s hs t ht

/-- the assignment writes to cell `c` of the storage, whose component satisfies `C`; it reads that cell and others whose
component does not -/
structure Writes (L : Layout) (C : ℕ → Prop) (s : Stmt K) (c : Cell) : Prop where
  dst : s.dst = L.at c
  isIn : In L c
  comp : C c.m
  src : ∀ i, s.src i = L.at c ∨ ∃ c', In L c' ∧ ¬ C c'.m ∧ s.src i = L.at c'

theorem Writes.apart {L : Layout} {C : ℕ → Prop} {s t : Stmt K} {c c' : Cell} (hs : Writes L C s c) (ht : Writes L C t c')
    (hne : c ≠ c') : Apart s t := by
  refine ⟨?_, ?_, ?_⟩
  · rw [hs.dst, ht.dst]; exact fun e => hne (at_inj hs.isIn ht.isIn e)
  · intro i e
    rw [hs.dst] at e
    rcases ht.src i with h | ⟨c'', h1, h2, h3⟩
    · exact hne (at_inj hs.isIn ht.isIn (e.symm.trans h))
    · have := at_inj h1 hs.isIn (h3.symm.trans e)
      rw [this] at h2
      exact h2 hs.comp
  · intro i e
    rw [ht.dst] at e
    rcases hs.src i with h | ⟨c'', h1, h2, h3⟩
    · exact hne (at_inj hs.isIn ht.isIn (h.symm.trans e))
    · have := at_inj h1 ht.isIn (h3.symm.trans e)
      rw [this] at h2
      exact h2 ht.comp

theorem Writes.ok {L : Layout} {C : ℕ → Prop} {s : Stmt K} {c : Cell} (hs : Writes L C s c) {R : List K} {N : ℕ}
    (hN : N = L.size) (hR : ∀ i, s.rsrc i < R.length) : s.Ok R N := by
  subst hN
  refine ⟨by rw [hs.dst]; exact at_lt hs.isIn, fun i => ?_, hR⟩
  rcases hs.src i with h | ⟨c', h1, -, h3⟩
  · rw [h]; exact at_lt hs.isIn
  · rw [h3]; exact at_lt h1

/-! ### `Stores` by cells -/

/-- the cell of the patch -/
def Cell.idx (L : Layout) (c : Cell) : I3 := fun d => (![(c.i : ℤ), c.j, c.k] : I3) d - L.ibn d

theorem lt_im {L : Layout} {d : Fin 3} {n : ℕ} : n < L.im d ↔ (n : ℤ) < L.ldims d + 2 * L.ibn d := by
  unfold Layout.im; omega

theorem stores_iff {L : Layout} {S : RankState K} {M : List K} :
    Stores L S M ↔ M.length = L.size ∧ ∀ c, In L c → M[L.at c]? = some (S c.p (c.m, c.idx L)) := by
  unfold Stores
  refine and_congr Iff.rfl ⟨?_, ?_⟩
  · intro h c hc
    have := h c.p hc.p c.m hc.m ![c.i, c.j, c.k] (by
      intro d
      fin_cases d
      · exact lt_im.1 hc.i
      · exact lt_im.1 hc.j
      · exact lt_im.1 hc.k)
    refine this.trans ?_
    congr 3
    funext d
    fin_cases d <;> rfl
  · intro h p hp m hm n hn
    have := h ⟨n 0, n 1, n 2, m, p⟩ ⟨lt_im.2 (hn 0), lt_im.2 (hn 1), lt_im.2 (hn 2), hm, hp⟩
    refine this.trans ?_
    congr 3
    funext d
    fin_cases d <;> rfl

end Psc.CudaFlds
