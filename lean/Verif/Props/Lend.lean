import Mathlib.Data.Rat.Floor
import Mathlib.Tactic.NormNum
import Mathlib.Tactic.Linarith
import Verif.Lemmas.Lend

/-!
# C106: lending particles in another representation
-/

namespace Psc.Props

open Psc.Lend
open Psc.A2 (Prt)

variable {K : Type} [Field K] [LinearOrder K] [IsStrictOrderedRing K] [FloorRing K] {np : ℕ}

/-- **C106.**  Who asks for particles sees them: in the type asked for, in the same patches, as many, in the same order, with every
number rounded to that type and particles on an upper face moved inside by a millionth; if the type asked for is the type of the
container it is the container itself.  The container and all others are as before. -/
theorem C106_seen (e : Env K) (hl : ∀ d, 0 < e.ldims d) (m : Mem K np) (a : ℕ) (c : Cont K np) (hc : m[a]?.join = some c) (t : Ty)
    (h : c.ty = t ∨ (Plain c.ty ∧ Plain t ∧ ∀ p, ∀ q ∈ c.prts p, InPatch e t q)) :
    ∃ m' b, getAs e m a t false = some (m', b) ∧ m'[b]?.join = some ⟨t, c.grid, seen e c.ty t c.prts⟩ ∧
      (b = a ↔ c.ty = t) ∧ ∀ i < m.length, m'[i]? = m[i]? := by
  by_cases ht : c.ty = t
  · subst ht
    refine ⟨m, a, get_same e hc false, ?_, by simp, fun _ _ => rfl⟩
    rw [hc, seen, if_pos rfl]
  · obtain h | ⟨h1, h2, h3⟩ := h
    · exact absurd h ht
    refine ⟨_, _, get_other hl hc ht h1 h2 h3, ?_, ?_, ?_⟩
    · rw [List.getElem?_concat_length, seen, if_neg ht]; rfl
    · have := lt_of_some hc
      simp only [ht, iff_false]; omega
    · intro i hi
      exact List.getElem?_append_left hi

/-- **C106.**  After any history of loans, with anything done to the particles lent, the container has the particles as the borrowers
left them (or as before the loan, if they were not to be copied back), it has the type and grid it had, all other containers are as
before, and no container lent is left behind. -/
theorem C106_loans (e : Env K) (hl : ∀ d, 0 < e.ldims d) (m : Mem K np) (a : ℕ) (c : Cont K np) (hc : m[a]?.join = some c)
    (ls : List (Loan K np)) (h : LoansOk e c.ty ls c.prts) :
    ∃ m', runLoans e a m ls = some m' ∧ m'[a]?.join = some ⟨c.ty, c.grid, afterLoans e c.ty ls c.prts⟩ ∧
      ∀ b : ℕ, b ≠ a → m'[b]?.join = m[b]?.join := by
  obtain ⟨k, hk⟩ := runLoans_spec hl ls hc h
  refine ⟨_, hk, ?_, fun b hb => others_mem (lt_of_some hc) b hb⟩
  rw [List.getElem?_append_left (by simpa using lt_of_some hc), List.getElem?_set_self (lt_of_some hc)]
  rfl

/-- **C106.**  Any number of loans by which nothing is changed, copied back or not, of particles inside their patches whose numbers are
numbers of both types (as those of a container in single precision are in double precision), leave every particle exactly as it
was. -/
theorem C106_unchanged (e : Env K) (hl : ∀ d, 0 < e.ldims d) (m : Mem K np) (a : ℕ) (c : Cont K np) (hc : m[a]?.join = some c)
    (ls : List (Loan K np)) (hf : ∀ l ∈ ls, l.f = id) (ht : ∀ l ∈ ls, Plain l.ty) (hct : Plain c.ty)
    (hq : ∀ p, ∀ q ∈ c.prts p, ∀ t, Plain t → Psc.Lend.Fits e t q ∧
      ∀ d, 0 ≤ q.x d * e.rnd t (e.dxInv d) ∧ q.x d * e.rnd t (e.dxInv d) < e.ldims d) :
    ∃ m', runLoans e a m ls = some m' ∧ ∀ b : ℕ, m'[b]?.join = m[b]?.join := by
  have hin : ∀ t, Plain t → ∀ p, ∀ q ∈ c.prts p, InPatch e t q := fun t ht p q h d => by
    obtain ⟨h1, h2⟩ := hq p q h t ht
    rw [h1.1 d]
    exact ⟨(h2 d).1, (h2 d).2.le⟩
  have hid : ∀ t, Plain t → (fun p => (c.prts p).map (inTy e t)) = c.prts := fun t ht => by
    funext p
    conv_rhs => rw [← List.map_id (c.prts p)]
    apply List.map_congr_left
    intro q h
    obtain ⟨h1, h2⟩ := hq p q h t ht
    exact inTy_fits h1 fun d => by rw [h1.1 d]; exact (h2 d).2
  have hseen : ∀ t, Plain t → seen e c.ty t c.prts = c.prts := fun t ht => by
    rw [seen]; split
    · rfl
    · exact hid t ht
  have hafter : ∀ l : Loan K np, l.f = id → Plain l.ty → afterLoan e c.ty l c.prts = c.prts := fun l h1 h2 => by
    rw [afterLoan, h1, hseen _ h2]
    split
    · rfl
    · split
      · rfl
      · exact hid _ hct
  have hall : ∀ ls : List (Loan K np), (∀ l ∈ ls, l.f = id) → (∀ l ∈ ls, Plain l.ty) →
      LoansOk e c.ty ls c.prts ∧ afterLoans e c.ty ls c.prts = c.prts := by
    intro ls
    induction ls with
    | nil => intro _ _; exact ⟨trivial, rfl⟩
    | cons l ls ih =>
      intro h1 h2
      have h3 := hafter l (h1 l (by simp)) (h2 l (by simp))
      have h4 := ih (fun l hl => h1 l (by simp [hl])) (fun l hl => h2 l (by simp [hl]))
      refine ⟨⟨Or.inr ⟨hct, h2 l (by simp), hin _ (h2 l (by simp)), fun _ p q hq => ?_⟩, ?_⟩, ?_⟩
      · rw [h1 l (by simp), hseen _ (h2 l (by simp))] at hq
        exact hin _ hct p q hq
      · rw [h3]; exact h4.1
      · rw [afterLoans, h3]; exact h4.2
  obtain ⟨h1, h2⟩ := hall ls hf ht
  obtain ⟨m', hm, ha, hb⟩ := C106_loans e hl m a c hc ls h1
  refine ⟨m', hm, fun b => ?_⟩
  by_cases hba : b = a
  · rw [hba, ha, h2, hc]
  · exact hb b hba

/-- **C106.**  A loan for which there is no conversion is refused: the program stops, for particles in and out of patches, instead of
handing out something else. -/
theorem C106_refused (e : Env K) (m : Mem K np) (a : ℕ) (c : Cont K np) (hc : m[a]?.join = some c) (t : Ty) (ht : c.ty ≠ t)
    (h : ¬(Plain c.ty ∧ Plain t)) (dont : Bool) : getAs e m a t dont = none := by
  have := convert_unknown e (x := c) (y := ⟨t, c.grid, fun _ => []⟩) ht h
  simp only [getAs, hc, Option.bind_eq_bind, Option.bind_some, if_neg ht, this]
  cases dont <;> rfl

/-- **C106.**  The check of particles in double precision: it passes exactly if all particles are in their patch in the first and third
direction, and changes nothing. -/
theorem C106_check_double (e : Env K) (m : Mem K np) (a : ℕ) (c : Cont K np) (hc : m[a]?.join = some c) (ht : c.ty = .double) :
    ((check e m a).isSome ↔ ∀ p, ∀ q ∈ c.prts p, ∀ d : Fin 3, d ≠ 1 → 0 ≤ q.x d ∧ q.x d < e.ldims d * e.dx d) ∧
      ∀ m', check e m a = some m' → m' = m := by
  have hget := get_same e hc false
  rw [ht] at hget
  have hput : putAs e m a a true = some m := by simp [putAs, hc]
  have hiff : (∀ p, ∀ q ∈ c.prts p, fails e q = false) ↔
      ∀ p, ∀ q ∈ c.prts p, ∀ d : Fin 3, d ≠ 1 → 0 ≤ q.x d ∧ q.x d < e.ldims d * e.dx d := by
    refine forall_congr' fun p => forall_congr' fun q => forall_congr' fun _ => ?_
    simp only [fails, Bool.or_eq_false_iff, decide_eq_false_iff_not, not_lt, not_le, ge_iff_le]
    constructor
    · rintro ⟨⟨⟨h1, h2⟩, h3⟩, h4⟩ d hd
      match d with
      | 0 => exact ⟨h1, h2⟩
      | 1 => exact absurd rfl hd
      | 2 => exact ⟨h3, h4⟩
    · intro h
      exact ⟨⟨⟨(h 0 (by decide)).1, (h 0 (by decide)).2⟩, (h 2 (by decide)).1⟩, (h 2 (by decide)).2⟩
  simp only [check, hget, Option.bind_eq_bind, Option.bind_some, hc, count_zero, hput]
  rw [← hiff]
  split
  · next h => exact ⟨⟨fun _ => h, fun _ => rfl⟩, fun m' hm => (Option.some.inj hm).symm⟩
  · next h => exact ⟨⟨fun hh => (by cases hh), fun hh => absurd hh h⟩, fun m' hm => (by cases hm)⟩

/-- **C106, partial.**  The check of particles in single precision passes if all particles are in their patch or on its faces, and
leaves all containers as they are.  Missing: it should not pass otherwise, see `C106_check_violation`. -/
theorem C106_check_single_partial (e : Env K) (hl : ∀ d, 0 < e.ldims d) (hdx : ∀ d, 0 < e.dx d)
    (hdxi : ∀ d, e.dx d * e.rnd .double (e.dxInv d) = 1) (m : Mem K np) (a : ℕ) (c : Cont K np) (hc : m[a]?.join = some c)
    (ht : c.ty = .single) (h : ∀ p, ∀ q ∈ c.prts p, InPatch e .double q) :
    ∃ m', check e m a = some m' ∧ ∀ b : ℕ, m'[b]?.join = m[b]?.join := by
  have hne : c.ty ≠ .double := by rw [ht]; decide
  have hget := get_other hl hc hne (Or.inl ht) (Or.inr rfl) h
  have hcnt : ∀ p, ∀ q ∈ (c.prts p).map (inTy e .double), fails e q = false := by
    intro p q hq
    obtain ⟨q0, h0, rfl⟩ := List.mem_map.1 hq
    have key : ∀ d, 0 ≤ (inTy e .double q0).x d ∧ (inTy e .double q0).x d < e.ldims d * e.dx d := by
      intro d
      obtain ⟨h1, h2⟩ := h p q0 h0 d
      have hpos : 0 < e.rnd .double (e.dxInv d) := by
        by_contra hh
        have := mul_nonpos_of_nonneg_of_nonpos (hdx d).le (not_lt.1 hh)
        rw [hdxi d] at this
        exact absurd this (not_le.2 one_pos)
      have hx0 : 0 ≤ e.rnd .double (q0.x d) := by
        by_contra hh
        exact absurd h1 (not_le.2 (mul_neg_of_neg_of_pos (not_le.1 hh) hpos))
      have hxx : e.rnd .double (q0.x d) = e.rnd .double (q0.x d) * e.rnd .double (e.dxInv d) * e.dx d := by
        rw [mul_assoc, mul_comm (e.rnd .double (e.dxInv d)), hdxi d, mul_one]
      have hlp : (0 : K) < e.ldims d * e.dx d := mul_pos (by exact_mod_cast hl d) (hdx d)
      simp only [inTy]
      split
      · next he =>
        rw [hxx, he]
        constructor
        · exact mul_nonneg hlp.le (by norm_num)
        · have : (e.ldims d * e.dx d : K) * (1 - 1 / 1000000) = e.ldims d * e.dx d - e.ldims d * e.dx d * (1 / 1000000) := by
            rw [mul_sub, mul_one]
          rw [this]
          have : (0 : K) < e.ldims d * e.dx d * (1 / 1000000) := mul_pos hlp (by norm_num)
          linarith
      · next he =>
        refine ⟨hx0, ?_⟩
        rw [hxx]
        exact mul_lt_mul_of_pos_right (lt_of_le_of_ne h2 he) (hdx d)
    simp only [fails, Bool.or_eq_false_iff, decide_eq_false_iff_not, not_lt, not_le, ge_iff_le]
    exact ⟨⟨⟨(key 0).1, (key 0).2⟩, (key 2).1⟩, (key 2).2⟩
  have hlt := lt_of_some hc
  refine ⟨m ++ [none], ?_, fun b => ?_⟩
  · have g1 : ∀ o : Cont K np, (m ++ [some o])[m.length]?.join = some o := by
      intro o; rw [List.getElem?_concat_length]; rfl
    have g2 : ∀ o : Option (Cont K np), (m ++ [o])[a]?.join = some c := by
      intro o; rw [List.getElem?_append_left hlt, hc]
    simp only [check, hget, Option.bind_eq_bind, Option.bind_some, g1, count_zero]
    rw [if_pos hcnt]
    simp only [putAs, g1, g2, Option.bind_eq_bind, Option.bind_some, if_neg (Ne.symm hne), if_true, Option.pure_def]
    rw [List.set_append_right _ _ (le_refl _)]
    simp
  · by_cases hb : b < m.length
    · rw [List.getElem?_append_left hb]
    · rw [List.getElem?_append_right (by omega), List.getElem?_eq_none (by omega : m.length ≤ b)]
      match hk : b - m.length with
      | 0 => rfl
      | k + 1 => rfl

/-! ## examples and violations -/

/-- 4 x 4 x 4 cells of size 1/2; single precision is multiples of 1/8 -/
def e106 : Env ℚ where
  rnd t x := match t with
    | .single | .singleId => (⌊x * 8⌋ : ℚ) / 8
    | _ => x
  dx _ := 1 / 2
  dxInv _ := 2
  ldims _ := 4

/-- a particle on the diagonal -/
def q106 (x : ℚ) : Prt ℚ := ⟨fun _ => x, fun _ => 1 / 4, 1 / 2, 1, 0, 0⟩

/-- a container of two patches -/
def c106 (t : Ty) (x y : ℚ) : Cont ℚ 2 := ⟨t, 0, fun p => if p = 0 then [q106 x, q106 y] else [q106 y]⟩

/-- a borrower that doubles velocities and removes the first particle of each patch -/
def f106 (g : Prts ℚ 2) : Prts ℚ 2 := fun p => ((g p).drop 1).map fun q => { q with u := fun d => 2 * q.u d }

theorem in106 (t : Ty) (ht : Plain t) (q : Prt ℚ) (h : ∀ d, q.x d = 1 ∨ q.x d = 3 / 2) : InPatch e106 t q := by
  intro d
  rcases ht with rfl | rfl <;> rcases h d with h' | h' <;> rw [h'] <;> clear h h' <;> revert d <;> decide +kernel

-- the hypotheses of `C106_seen`, `C106_loans` and `C106_check_single_partial` can be met
example : ∃ m' b, getAs e106 [some (c106 .single 1 (3 / 2))] 0 .double false = some (m', b) ∧
    m'[b]?.join = some ⟨.double, 0, seen e106 .single .double (c106 .single 1 (3 / 2)).prts⟩ ∧ (b = 0 ↔ Ty.single = .double) ∧
    ∀ i < 1, m'[i]? = [some (c106 .single 1 (3 / 2))][i]? := by
  refine C106_seen e106 (by decide) _ 0 (c106 .single 1 (3 / 2)) rfl .double (Or.inr ⟨Or.inl rfl, Or.inr rfl, ?_⟩)
  intro p q hq
  apply in106 _ (Or.inr rfl)
  intro d
  match p with
  | 0 => rcases List.mem_cons.1 hq with rfl | hq
         · exact Or.inl rfl
         · rw [List.mem_singleton.1 hq]; exact Or.inr rfl
  | 1 => rw [List.mem_singleton.1 hq]; exact Or.inr rfl

example : LoansOk e106 .single [⟨.double, f106, false⟩, ⟨.single, f106, false⟩, ⟨.double, f106, true⟩] (c106 .single 1 (3 / 2)).prts := by
  have h0 : ∀ p, ∀ q ∈ (c106 .single 1 (3 / 2)).prts p, ∀ d, q.x d = 1 ∨ q.x d = 3 / 2 := by
    intro p q hq d
    match p with
    | 0 => rcases List.mem_cons.1 hq with rfl | hq
           · exact Or.inl rfl
           · rw [List.mem_singleton.1 hq]; exact Or.inr rfl
    | 1 => rw [List.mem_singleton.1 hq]; exact Or.inr rfl
  refine ⟨Or.inr ⟨Or.inl rfl, Or.inr rfl, fun p q hq => in106 _ (Or.inr rfl) q (h0 p q hq), fun _ p q hq => ?_⟩, Or.inl rfl,
    Or.inr ⟨Or.inl rfl, Or.inr rfl, ?_, fun h => by cases h⟩, trivial⟩
  · apply in106 _ (Or.inl rfl)
    intro d
    match p with
    | 0 => rw [List.mem_singleton.1 hq]; exact Or.inr (by revert d; decide +kernel)
    | 1 => cases hq
  · intro p q hq
    match p with
    | 0 => cases hq
    | 1 => cases hq

-- the hypotheses of `C106_unchanged`
example : ∀ t, Plain t → Psc.Lend.Fits e106 t (q106 (3 / 2)) ∧
    ∀ d, 0 ≤ (q106 (3 / 2)).x d * e106.rnd t (e106.dxInv d) ∧ (q106 (3 / 2)).x d * e106.rnd t (e106.dxInv d) < e106.ldims d := by
  intro t ht
  rcases ht with rfl | rfl <;> (simp only [Psc.Lend.Fits]; decide +kernel)

-- the hypotheses of `C106_check_single_partial`, and the check of `C106_check_double` can fail
example : (∀ d, 0 < e106.ldims d) ∧ (∀ d, 0 < e106.dx d) ∧ ∀ d, e106.dx d * e106.rnd .double (e106.dxInv d) = 1 := by decide +kernel

example : (check e106 [some (c106 .double (-1) 1)] 0).isSome = false ∧ (check e106 [some (c106 .double 1 (3 / 2))] 0).isSome = true := by
  decide +kernel

/-- **Violation of C106.**  A particle that has left its patch (as after a push, before the exchange) is moved to the face when the
particles are lent in another type: after a loan by which nothing is changed it is at another place, and belongs to another patch. -/
theorem C106_moved_violation : ∃ m' : Mem ℚ 2, runLoan e106 [some (c106 .single (-1) 1)] 0 ⟨.double, id, false⟩ = some m' ∧
    (m'[0]?.join.map fun c => (c.prts 0).map fun q => q.x 0) = some [0, 1] := by
  have h : (runLoan e106 [some (c106 .single (-1) 1)] 0 ⟨.double, id, false⟩).bind
    (fun m' => m'[0]?.join.map fun c => (c.prts 0).map fun q => q.x 0) = some [0, 1] := by decide +kernel
  obtain ⟨m', h1, h2⟩ := Option.bind_eq_some_iff.1 h
  exact ⟨m', h1, h2⟩

/-- **Violation of C106.**  The check of particles passes for particles in single precision that are outside of their patch, which it
reports for the same particles in double precision. -/
theorem C106_check_violation : (check e106 [some (c106 .single (-1) 1)] 0).isSome = true ∧
    (check e106 [some (c106 .double (-1) 1)] 0).isSome = false := by decide +kernel

/-- **Violation of C106.**  Particles with ids cannot be lent in another type, not even in another type with ids: asking for them stops
the program. -/
theorem C106_ids_violation : ∀ (a t : Ty), a ≠ t → (a.hasId = true ∨ t.hasId = true) →
    (getAs e106 [some (c106 a 1 1)] 0 t false).isSome = false := by
  intro a t hat h
  rw [C106_refused e106 [some (c106 a 1 1)] 0 (c106 a 1 1) rfl t hat ?_ false]
  · rfl
  · rintro ⟨h1, h2⟩
    change Plain a at h1
    rcases h1 with rfl | rfl <;> rcases h2 with rfl | rfl <;> rcases h with h | h <;> cases h

end Psc.Props
