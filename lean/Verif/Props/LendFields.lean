import Mathlib.Data.Rat.Floor
import Mathlib.Tactic.NormNum
import Verif.Lemmas.LendFields

/-!
# C107: lending fields in another representation
-/

namespace Psc.Props

open Psc.FieldStorage
open Psc.LendFields

variable {R : Type} [Zero R]

/-- **C107.**  Who asks for components of fields sees them: in the type asked for, every value of every cell and ghost point of every
patch rounded to that type, and zero for components not asked for; if the type asked for is the type of the fields it is the fields
themselves.  No access is out of bounds.  The fields and all others are as before. -/
theorem C107_seen (e : Psc.LendFields.Env R) (m : Psc.LendFields.Mem R) (a : ℕ) (c : Psc.LendFields.Cont R)
    (hc : m[a]?.join = some c) (hm : Made e c) (g : Key → R) (hg : Holds e c g) (t : Psc.LendFields.Ty) (mb me : ℤ)
    (hr : RangeOk c.comps mb me) :
    ∃ m' b f, Psc.LendFields.getAs e m a t mb me = some (m', b) ∧ m'[b]?.join = some ⟨t, c.grid, c.comps, c.ibn, f⟩ ∧
      Holds e ⟨t, c.grid, c.comps, c.ibn, f⟩ (Psc.LendFields.seen e c.ty t mb me g) ∧ (b = a ↔ c.ty = t) ∧
      ∀ i < m.length, m'[i]? = m[i]? := by
  by_cases ht : c.ty = t
  · subst ht
    refine ⟨m, a, c.f, Psc.LendFields.get_same e hc mb me, hc, ?_, by simp, fun _ _ => rfl⟩
    rw [Psc.LendFields.seen, if_pos rfl]
    exact hg
  · obtain ⟨f, h1, h2⟩ := Psc.LendFields.get_other hc (holds_has hg hm) ht hr
    refine ⟨_, _, f, h1, ?_, has_holds h2, ?_, fun i hi => List.getElem?_append_left hi⟩
    · rw [List.getElem?_concat_length]; rfl
    · have := Psc.LendFields.lt_of_some hc
      simp only [ht, iff_false]; omega

/-- **C107.**  After any history of loans, with any writes to the fields lent, the components returned have the values the borrowers left
there, rounded, and all others those before (if a loan was in the type of the fields themselves, all have the values the borrower
left); type, grid and shape are as before, all other fields are as before, and none lent is left behind. -/
theorem C107_loans (e : Psc.LendFields.Env R) (m : Psc.LendFields.Mem R) (a : ℕ) (c : Psc.LendFields.Cont R)
    (hc : m[a]?.join = some c) (hm : Made e c) (g : Key → R) (hg : Holds e c g) (ls : List (Psc.LendFields.Loan R))
    (h : ∀ l ∈ ls, l.Ok (e.ldims c.grid) c.ibn c.comps (e.np c.grid)) :
    ∃ m' f, Psc.LendFields.runLoans e a m ls = some m' ∧ m'[a]?.join = some ⟨c.ty, c.grid, c.comps, c.ibn, f⟩ ∧
      Holds e ⟨c.ty, c.grid, c.comps, c.ibn, f⟩ (Psc.LendFields.afterLoans e c.ty ls g) ∧
      ∀ b : ℕ, b ≠ a → m'[b]?.join = m[b]?.join := by
  obtain ⟨k, f, hk, hf⟩ := Psc.LendFields.runLoans_spec ls hc (holds_has hg hm) h
  have hlt := Psc.LendFields.lt_of_some hc
  refine ⟨_, f, hk, ?_, has_holds hf, fun b hb => Psc.LendFields.others_mem b hb⟩
  rw [List.getElem?_append_left (by simpa using hlt), List.getElem?_set_self hlt]
  rfl

/-- **C107.**  The type in which fields are lent makes no difference to a program that returns only components it asked for, writes only
to components it returns, and whose numbers are numbers of both types: after any history of such loans the fields are as if the
program had written to them directly. -/
theorem C107_direct (e : Psc.LendFields.Env R) (m : Psc.LendFields.Mem R) (a : ℕ) (c : Psc.LendFields.Cont R)
    (hc : m[a]?.join = some c) (hm : Made e c) (g : Key → R) (hg : Holds e c g) (ls : List (Psc.LendFields.Loan R))
    (h : ∀ l ∈ ls, l.Ok (e.ldims c.grid) c.ibn c.comps (e.np c.grid)) (hr : ∀ l ∈ ls, l.mb ≤ l.mb' ∧ l.me' ≤ l.me)
    (hw : ∀ l ∈ ls, ∀ o ∈ l.ops, ∃ w x v, o = .put w x v ∧ (l.mb' ≤ x.m ∧ x.m < l.me') ∧ ∀ t, e.rnd t v = v)
    (hn : ∀ x t, e.rnd t (g x) = g x) :
    ∃ m' f, Psc.LendFields.runLoans e a m ls = some m' ∧ m'[a]?.join = some ⟨c.ty, c.grid, c.comps, c.ibn, f⟩ ∧
      Holds e ⟨c.ty, c.grid, c.comps, c.ibn, f⟩ (after g (ls.flatMap fun l => l.ops)) := by
  classical
  obtain ⟨m', f, h1, h2, h3, _⟩ := C107_loans e m a c hc hm g hg ls h
  refine ⟨m', f, h1, h2, ?_⟩
  have happ : ∀ (l l' : List (Op R)) (g : Key → R), (∀ o ∈ l, ∃ w x v, o = .put w x v) → after g (l ++ l') = after (after g l) l' := by
    intro l
    induction l with
    | nil => intro l' g _; rfl
    | cons o l ih =>
      intro l' g ho
      obtain ⟨w, x, v, rfl⟩ := ho o (by simp)
      simp only [List.cons_append, after]
      exact ih l' _ fun o hh => ho o (by simp [hh])
  -- one sequence of writes, on two fields
  have hops : ∀ (lo hi : ℤ) (ops : List (Op R)), (∀ o ∈ ops, ∃ w x v, o = .put w x v ∧ (lo ≤ x.m ∧ x.m < hi) ∧ ∀ t, e.rnd t v = v) →
      ∀ g s : Key → R, (∀ x t, e.rnd t (g x) = g x) → (∀ x : Key, lo ≤ x.m ∧ x.m < hi → s x = g x) →
      (∀ x t, e.rnd t (after g ops x) = after g ops x) ∧ (∀ x : Key, lo ≤ x.m ∧ x.m < hi → after s ops x = after g ops x) ∧
      ∀ x : Key, ¬(lo ≤ x.m ∧ x.m < hi) → after g ops x = g x := by
    intro lo hi ops
    induction ops with
    | nil => intro _ g s h1 h2; exact ⟨h1, h2, fun _ _ => rfl⟩
    | cons o ops ih =>
      intro ho g s h1 h2
      obtain ⟨w, x, v, rfl, hx, hv⟩ := ho o (by simp)
      simp only [after]
      obtain ⟨b1, b2, b3⟩ := ih (fun o hh => ho o (by simp [hh])) (fun y => if y = x then v else g y) (fun y => if y = x then v else s y)
        (fun y t => by beta_reduce; split
                       · exact hv t
                       · exact h1 y t)
        (fun y hy => by beta_reduce; split
                        · rfl
                        · exact h2 y hy)
      refine ⟨b1, b2, fun y hy => ?_⟩
      rw [b3 y hy, if_neg]
      rintro rfl
      exact hy hx
  have hall : ∀ (ls : List (Psc.LendFields.Loan R)), (∀ l ∈ ls, l.mb ≤ l.mb' ∧ l.me' ≤ l.me) →
      (∀ l ∈ ls, ∀ o ∈ l.ops, ∃ w x v, o = .put w x v ∧ (l.mb' ≤ x.m ∧ x.m < l.me') ∧ ∀ t, e.rnd t v = v) →
      ∀ g : Key → R, (∀ x t, e.rnd t (g x) = g x) →
      Psc.LendFields.afterLoans e c.ty ls g = after g (ls.flatMap fun l => l.ops) := by
    intro ls
    induction ls with
    | nil => intro _ _ g _; rfl
    | cons l ls ih =>
      intro hr hw g hn
      have hwl := hw l (by simp)
      have hrl := hr l (by simp)
      have e1 : Psc.LendFields.afterLoan e c.ty l g = after g l.ops := by
        rw [Psc.LendFields.afterLoan]
        by_cases ht : c.ty = l.ty
        · simp only [if_pos ht, Psc.LendFields.seen]
        · simp only [if_neg ht]
          obtain ⟨b1, b2, b3⟩ := hops l.mb' l.me' l.ops hwl g (Psc.LendFields.seen e c.ty l.ty l.mb l.me g) hn (fun x hx => by
            rw [Psc.LendFields.seen, if_neg ht]
            beta_reduce
            rw [if_pos ⟨by omega, by omega⟩, hn])
          funext x
          split
          · next hx => rw [b2 x hx, b1]
          · next hx => rw [b3 x hx]
      rw [Psc.LendFields.afterLoans, e1, ih (fun l hl => hr l (by simp [hl])) (fun l hl => hw l (by simp [hl])) _
        (hops l.mb' l.me' l.ops hwl g g hn fun _ _ => rfl).1, List.flatMap_cons,
        happ _ _ _ fun o ho => by obtain ⟨w, x, v, h, _⟩ := hwl o ho; exact ⟨w, x, v, h⟩]
  rw [← hall ls hr hw g hn]
  exact h3

/-! ## examples -/

/-- two patches of 2 x 1 x 1 cells; single precision is whole numbers -/
def e107 : Psc.LendFields.Env ℚ where
  rnd t x := match t with
    | .single => (⌊x⌋ : ℚ)
    | .double => x
  ldims _ := ![2, 1, 1]
  np _ := 2

/-- fields of three components with a ghost point in the first direction -/
def c107 (t : Psc.LendFields.Ty) : Psc.LendFields.Cont ℚ := Psc.LendFields.new e107 t 0 3 ![1, 0, 0]

/-- a value is written to component 1 in a ghost point of the second patch -/
def l107 (t : Psc.LendFields.Ty) : Psc.LendFields.Loan ℚ := ⟨t, 0, 2, [.put xyz ⟨1, ![-1, 0, 0], 1⟩ 7], 1, 2⟩

-- the hypotheses of the theorems can be met
example (t : Psc.LendFields.Ty) : Made e107 (c107 t) ∧ Holds e107 (c107 t) (fun _ => 0) ∧ RangeOk 3 0 2 ∧
    (∀ t', (l107 t').Ok (e107.ldims 0) (c107 t).ibn 3 (e107.np 0)) ∧
    (∀ t', ∀ o ∈ (l107 t').ops, ∃ w x v, o = .put w x v ∧ ((l107 t').mb' ≤ x.m ∧ x.m < (l107 t').me') ∧ ∀ t, e107.rnd t v = v) := by
  refine ⟨⟨[], .nil _, rfl⟩, has_holds (has_new _ _ _ _ _), by intro m h1 h2; omega, fun t' => ⟨?_, ?_, ?_⟩, fun t' o ho => ?_⟩
  · intro m (h1 : 0 ≤ m) (h2 : m < 2); omega
  · intro m (h1 : 1 ≤ m) (h2 : m < 2); omega
  · refine .put (xyz_ok _ _) ⟨by simp, fun d => ?_, by simp [e107]⟩ (.nil _)
    match d with
    | 0 => cases t <;> decide +kernel
    | 1 => cases t <;> decide +kernel
    | 2 => cases t <;> decide +kernel
  · rw [List.mem_singleton.1 ho]
    refine ⟨_, _, _, rfl, by simp [l107], fun t => ?_⟩
    cases t <;> decide +kernel

-- a loan in double precision of fields in single precision
example : (Psc.LendFields.runLoan e107 [some (c107 .single)] 0 (l107 .double)).bind (fun m => m[0]?.join.bind fun c =>
    c.f.get .direct 1 (-1) 0 0 1) = some 7 := by decide +kernel

/-- Returning more components than were asked for is not harmless: those not asked for become zero (in the specification too). -/
theorem C107_more : ∃ l : Psc.LendFields.Loan ℚ, l.ops = [] ∧ l.Ok (e107.ldims 0) (c107 .single).ibn 3 (e107.np 0) ∧
    (((c107 .single).f.put .direct 2 0 0 0 0 5).bind fun f =>
      (Psc.LendFields.runLoan e107 [some { c107 .single with f := f }] 0 l).bind fun m => m[0]?.join.bind fun c =>
        c.f.get .direct 2 0 0 0 0) = some 0 := by
  refine ⟨⟨.double, 0, 2, [], 0, 3⟩, rfl, ⟨?_, ?_, .nil _⟩, by decide +kernel⟩
  · intro m (h1 : 0 ≤ m) (h2 : m < 2); omega
  · intro m (h1 : 0 ≤ m) (h2 : m < 3); omega

end Psc.Props
