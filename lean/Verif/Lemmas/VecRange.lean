import Verif.Spec.VecRange
import Mathlib.Data.List.Nodup
import Mathlib.Data.List.Pairwise

/-! # Lemmas about index ranges and particle ids -/

namespace Psc.Props

open Psc.Range

/-- the indices of the box are exactly those between the bounds -/
theorem mem_rowMajor (r : List (ℤ × ℤ)) (i : List ℤ) :
    i ∈ rowMajor r ↔ List.Forall₂ (fun x (s : ℤ × ℤ) => s.1 ≤ x ∧ x < s.2) i r := by
  induction r generalizing i with
  | nil => simp [rowMajor]
  | cons s r ih =>
    simp only [rowMajor, List.mem_flatMap, List.mem_range, List.mem_map, ih]
    constructor
    · rintro ⟨k, hk, j, hj, rfl⟩
      exact .cons (by omega) hj
    · intro h
      cases h with
      | cons h1 h2 =>
        rename_i x j
        exact ⟨(x - s.1).toNat, by omega, j, h2, by congr 1; omega⟩

theorem rowMajor_nodup (r : List (ℤ × ℤ)) : (rowMajor r).Nodup := by
  induction r with
  | nil => simp [rowMajor]
  | cons s r ih =>
    rw [rowMajor, List.nodup_flatMap]
    refine ⟨fun k _ => ih.map fun a b h => by simpa using h, ?_⟩
    refine List.Pairwise.imp ?_ (List.nodup_range (n := (s.2 - s.1).toNat))
    intro a b hab
    rw [Function.onFun, List.disjoint_left]
    intro x hx hx'
    simp only [List.mem_map] at hx hx'
    obtain ⟨_, _, rfl⟩ := hx
    obtain ⟨_, _, h⟩ := hx'
    simp only [List.cons.injEq] at h
    omega

/-- row-major order is lexicographic order -/
theorem rowMajor_sorted (r : List (ℤ × ℤ)) : (rowMajor r).Pairwise lexLt := by
  induction r with
  | nil => simp [rowMajor]
  | cons s r ih =>
    rw [rowMajor, List.pairwise_flatMap]
    refine ⟨fun k _ => ?_, ?_⟩
    · rw [List.pairwise_map]
      exact ih.imp fun h => Or.inr ⟨rfl, h⟩
    · refine List.Pairwise.imp ?_ (List.pairwise_lt_range (n := (s.2 - s.1).toNat))
      intro a b hab x hx y hy
      simp only [List.mem_map] at hx hy
      obtain ⟨_, _, rfl⟩ := hx
      obtain ⟨_, _, rfl⟩ := hy
      exact Or.inl (by omega)

/-! ### the iteration -/

/-- what is left to visit, including the current index: the current index of each dimension, the remaining ones of the
inner dimensions first -/
def remaining : List Axis → List (List ℤ)
  | [] => [[]]
  | a :: as =>
    (remaining as).map (fun i => a.cur :: i) ++
      (List.range (a.stop - (a.cur + 1)).toNat).flatMap fun (k : ℕ) =>
        (rowMajor (as.map fun b => (b.start, b.stop))).map fun i => (a.cur + 1 + (k : ℤ)) :: i

/-- a dimension that is not empty, with a valid current index -/
def Axis.Ok (a : Axis) : Prop := a.start ≤ a.cur ∧ a.cur < a.stop

theorem remaining_ne_nil (it : List Axis) : remaining it ≠ [] := by
  induction it with
  | nil => simp [remaining]
  | cons a as ih => simp [remaining, ih]

theorem remaining_first (r : List (ℤ × ℤ)) (h : ∀ s ∈ r, s.1 < s.2) : remaining (first r) = rowMajor r := by
  induction r with
  | nil => rfl
  | cons s r ih =>
    have h1 := h s (by simp)
    have ih := ih fun s hs => h s (by simp [hs])
    have e : (s.2 - s.1).toNat = (s.2 - (s.1 + 1)).toNat + 1 := by omega
    have hm : (List.map (fun s : ℤ × ℤ => (⟨s.1, s.2, s.1⟩ : Axis)) r).map (fun b => (b.start, b.stop)) = r := by
      simp [Function.comp_def]
    simp only [first, List.map_cons, remaining, rowMajor] at ih ⊢
    rw [ih, hm, e, List.range_succ_eq_map, List.flatMap_cons, List.flatMap_map]
    simp only [Nat.cast_zero, add_zero, Nat.succ_eq_add_one, Nat.cast_add, Nat.cast_one]
    congr 1
    simp only [add_assoc, add_comm (1 : ℤ)]

theorem inc_spec (it : List Axis) (h : ∀ a ∈ it, Axis.Ok a) :
    ((inc it).1.map fun a => (a.start, a.stop)) = (it.map fun a => (a.start, a.stop)) ∧
    (∀ a ∈ (inc it).1, Axis.Ok a) ∧
    ((inc it).2 = true → remaining it = [value it] ∧ (inc it).1 = first (it.map fun a => (a.start, a.stop))) ∧
    ((inc it).2 = false → remaining it = value it :: remaining (inc it).1) := by
  induction it with
  | nil => simp [inc, remaining, value, first]
  | cons a as ih =>
    have ha := h a (by simp)
    have has : ∀ b ∈ as, Axis.Ok b := fun b hb => h b (by simp [hb])
    obtain ⟨h1, h2, h3, h4⟩ := ih has
    rw [inc]
    rcases hr : inc as with ⟨as', c⟩
    rw [hr] at h1 h2 h3 h4
    simp only at h1 h2 h3 h4
    cases c with
    | false =>
      simp only
      refine ⟨by simp [h1], ?_, by simp, fun _ => ?_⟩
      · intro b hb
        rcases List.mem_cons.1 hb with rfl | hb
        · exact ha
        · exact h2 b hb
      · rw [remaining, h4 rfl, remaining, h1]
        simp [value]
    | true =>
      obtain ⟨h5, h6⟩ := h3 rfl
      simp only
      split_ifs with hlt
      · refine ⟨by simp [h1], ?_, by simp, fun _ => ?_⟩
        · intro b hb
          rcases List.mem_cons.1 hb with rfl | hb
          · exact ⟨by have := ha.1; simp; omega, by simpa using hlt⟩
          · exact h2 b hb
        · have hne : ∀ s ∈ as.map (fun b => (b.start, b.stop)), s.1 < s.2 := by
            intro s hs
            obtain ⟨b, hb, rfl⟩ := List.mem_map.1 hs
            have := has b hb
            exact lt_of_le_of_lt this.1 this.2
          rw [remaining, h5, remaining, h1, h6, remaining_first _ hne]
          have e : (a.stop - (a.cur + 1)).toNat = (a.stop - (a.cur + 1 + 1)).toNat + 1 := by omega
          rw [e, List.range_succ_eq_map, List.flatMap_cons, List.flatMap_map]
          simp only [Nat.cast_zero, add_zero, Nat.succ_eq_add_one, Nat.cast_add, Nat.cast_one, List.map_cons,
            List.map_nil, List.cons_append, List.nil_append, value]
          congr 2
          simp only [add_assoc, add_comm (1 : ℤ)]
      · refine ⟨by simp [h1], ?_, fun _ => ⟨?_, ?_⟩, by simp⟩
        · intro b hb
          rcases List.mem_cons.1 hb with rfl | hb
          · exact ⟨le_refl _, lt_of_le_of_lt ha.1 ha.2⟩
          · exact h2 b hb
        · have e : (a.stop - (a.cur + 1)).toNat = 0 := by omega
          rw [remaining, h5, e]
          simp [value]
        · simp [first, h6]

theorem visits_remaining (n : ℕ) (it : List Axis) (h : ∀ a ∈ it, Axis.Ok a) (hn : (remaining it).length = n) :
    Visits it (remaining it) := by
  induction n generalizing it with
  | zero =>
    exact absurd (List.length_eq_zero_iff.1 hn) (remaining_ne_nil it)
  | succ n ih =>
    obtain ⟨_, h2, h3, h4⟩ := inc_spec it h
    cases hc : (inc it).2 with
    | true => rw [(h3 hc).1]; exact .last it hc
    | false =>
      rw [h4 hc]
      refine .more it _ hc (ih _ h2 ?_)
      rw [h4 hc, List.length_cons] at hn
      omega

theorem visits_unique {it : List Axis} {l l' : List (List ℤ)} (h : Visits it l) (h' : Visits it l') : l = l' := by
  induction h generalizing l' with
  | last it h =>
    cases h' with
    | last => rfl
    | more _ _ h2 => rw [h] at h2; cases h2
  | more it l h _ ih =>
    cases h' with
    | last _ h2 => rw [h] at h2; cases h2
    | more _ _ _ h4 => rw [ih h4]

open Psc.Uid

theorem uid_run_spec (size : ℕ) (g : ℕ → Gen) (hg : ∀ r, (g r).rank = r ∧ (g r).size = size) (rs : List ℕ)
    (hrs : ∀ r ∈ rs, r < size) :
    (run g rs).1.Nodup ∧ ∀ x ∈ (run g rs).1, (g (x % size)).id ≤ x / size := by
  induction rs generalizing g with
  | nil => simp [run]
  | cons r rs ih =>
    have hr := hrs r (by simp)
    have hs : 0 < size := by omega
    simp only [run]
    obtain ⟨h1, h2⟩ := ih (Function.update g r (g r).next.2) (by
      intro q
      by_cases hq : q = r
      · subst hq; simp [Gen.next, hg]
      · simp [hq, hg]) fun q hq => hrs q (by simp [hq])
    have hid : (g r).next.1 = (g r).id * size + r := by simp [Gen.next, hg]
    have hmod : (g r).next.1 % size = r := by rw [hid, Nat.mul_comm, Nat.mul_add_mod, Nat.mod_eq_of_lt hr]
    have hdiv : (g r).next.1 / size = (g r).id := by
      rw [hid, Nat.mul_comm, Nat.mul_add_div hs, Nat.div_eq_of_lt hr, Nat.add_zero]
    constructor
    · rw [List.nodup_cons]
      refine ⟨fun hmem => ?_, h1⟩
      have := h2 _ hmem
      rw [hmod, hdiv, Function.update_self] at this
      simp [Gen.next] at this
    · intro x hx
      rcases List.mem_cons.1 hx with rfl | hx
      · rw [hmod, hdiv]
      · have := h2 x hx
        by_cases hq : x % size = r
        · rw [hq, Function.update_self] at this
          rw [hq]
          simp only [Gen.next] at this
          omega
        · rwa [Function.update_of_ne hq] at this

end Psc.Props
