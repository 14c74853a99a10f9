import Verif.Spec.LendFields
import Verif.Lemmas.FieldStorage

/-! # Lemmas about loans of fields -/

namespace Psc.LendFields

open Psc.FieldStorage

variable {R : Type} [Zero R]

/-- the key of loop indices -/
def key (x : ℤ × ℤ × ℤ × ℤ × ℤ) : Key := ⟨x.2.1, ![x.2.2.2.2, x.2.2.2.1, x.2.2.1], x.1⟩

theorem mem_idx {lo : ℤ} {n : ℕ} {i : ℤ} : i ∈ idx lo n ↔ lo ≤ i ∧ i < lo + n := by
  simp only [idx, List.mem_map, List.mem_range]
  constructor
  · rintro ⟨k, hk, rfl⟩; omega
  · intro h; exact ⟨(i - lo).toNat, by omega, by omega⟩

/-- the container has the shape and holds the fields -/
structure Has (e : Env R) (c : Cont R) (g : Key → R) : Prop where
  shape : Shape (e.ldims c.grid) c.ibn c.comps (e.np c.grid) c.f
  val : ∀ x : Key, x.Ok (e.ldims c.grid) c.ibn c.comps (e.np c.grid) → c.f.data[no c.f c.ibn c.comps x]? = some (g x)

theorem xyz_ok (ldims ibn : Fin 3 → ℕ) : xyz.Ok ldims ibn := by
  intro d h; cases h

theorem mem_loops {ldims ibn : Fin 3 → ℕ} {n np : ℕ} {f : Mflds R} (h : Shape ldims ibn n np f) {mb me : ℤ} (hr : RangeOk n mb me)
    (y : Key) : (∃ x ∈ loops f mb me, key x = y) ↔ y.Ok ldims ibn n np ∧ mb ≤ y.m ∧ y.m < me := by
  have hb := h.ib
  have hi := h.im
  have hp := h.patches
  constructor
  · rintro ⟨x, hx, rfl⟩
    simp only [loops, List.mem_flatMap, List.mem_map, mem_idx] at hx
    obtain ⟨p, h1, m, h2, jz, h3, jy, h4, jx, h5, rfl⟩ := hx
    have hm := hr m h2.1 (by omega)
    refine ⟨⟨hm, fun d => ?_, by rw [hp] at h1; exact ⟨h1.1, by simpa [key] using h1.2⟩⟩, h2.1, by simp only [key]; omega⟩
    rw [hb, hi] at h3 h4 h5
    match d with
    | 0 => simp only [key, Matrix.cons_val_zero]; push_cast at h5; omega
    | 1 => simp only [key, Matrix.cons_val_one, Matrix.cons_val_zero]; push_cast at h4; omega
    | 2 => simp only [key, Matrix.cons_val]; push_cast at h3; omega
  · rintro ⟨⟨h1, h2, h3⟩, h4, h5⟩
    refine ⟨(y.p, y.m, y.c 2, y.c 1, y.c 0), ?_, ?_⟩
    · simp only [loops, List.mem_flatMap, List.mem_map, mem_idx]
      have g0 := h2 0
      have g1 := h2 1
      have g2 := h2 2
      refine ⟨y.p, by rw [hp]; omega, y.m, by omega, y.c 2, ?_, y.c 1, ?_, y.c 0, ?_, rfl⟩ <;> rw [hb, hi] <;> push_cast <;> omega
    · rcases y with ⟨m, c, p⟩
      simp only [key, Key.mk.injEq, true_and, and_true]
      funext d
      match d with
      | 0 => rfl
      | 1 => rfl
      | 2 => rfl

theorem after_puts (v : Key → R) (ks : List Key) : ∀ (g : Key → R) (y : Key), ((y ∈ ks → after g (ks.map fun x => .put xyz x (v x)) y = v y) ∧
    (y ∉ ks → after g (ks.map fun x => .put xyz x (v x)) y = g y)) := by
  classical
  induction ks with
  | nil => intro g y; simp [after]
  | cons k ks ih =>
    intro g y
    simp only [List.map_cons, after, List.mem_cons]
    obtain ⟨h1, h2⟩ := ih (fun z => if z = k then v k else g z) y
    constructor
    · intro h
      by_cases hy : y ∈ ks
      · exact h1 hy
      · have : y = k := by tauto
        subst this
        have := h2 hy
        simpa using this
    · intro h
      rw [not_or] at h
      have := h2 h.2
      simpa [h.1] using this

theorem fits_puts {ldims ibn : Fin 3 → ℕ} {n np : ℕ} (v : Key → R) (ks : List Key) (h : ∀ x ∈ ks, x.Ok ldims ibn n np) :
    Psc.FieldStorage.Fits ldims ibn n np (ks.map fun x => Op.put xyz x (v x)) np := by
  induction ks with
  | nil => exact .nil np
  | cons k ks ih => exact .put (xyz_ok _ _) (h k (by simp)) (ih fun x hx => h x (by simp [hx]))

theorem assign_run {ldims ibn : Fin 3 → ℕ} {n np : ℕ} {src : Mflds R} (hs : Shape ldims ibn n np src) {g : Key → R}
    (hg : ∀ x : Key, x.Ok ldims ibn n np → src.data[no src ibn n x]? = some (g x)) (r : R → R) (l : List (ℤ × ℤ × ℤ × ℤ × ℤ))
    (hl : ∀ x ∈ l, (key x).Ok ldims ibn n np) : ∀ dst : Mflds R,
    l.foldlM (assign r src) dst = run dst ((l.map key).map fun x => .put xyz x (r (g x))) := by
  induction l with
  | nil => intro dst; rfl
  | cons x l ih =>
    intro dst
    have h1 := get_key hs (hl x (by simp)) (xyz_ok ldims ibn)
    rw [hg _ (hl x (by simp))] at h1
    have h2 : src.get xyz x.2.1 x.2.2.2.2 x.2.2.2.1 x.2.2.1 x.1 = some (g (key x)) := h1
    rw [List.foldlM_cons, assign, h2]
    simp only [Option.bind_eq_bind, Option.bind_some, List.map_cons, run]
    congr 1
    funext d
    exact ih (fun x hx => hl x (by simp [hx])) d

/-- the copy loops -/
theorem loops_spec {ldims ibn : Fin 3 → ℕ} {n np : ℕ} {src dst lp : Mflds R} (hs : Shape ldims ibn n np src)
    (hd : Shape ldims ibn n np dst) (hp : Shape ldims ibn n np lp) {g h : Key → R}
    (hg : ∀ x : Key, x.Ok ldims ibn n np → src.data[no src ibn n x]? = some (g x))
    (hh : ∀ x : Key, x.Ok ldims ibn n np → dst.data[no dst ibn n x]? = some (h x)) (r : R → R) {mb me : ℤ} (hr : RangeOk n mb me) :
    ∃ f, (loops lp mb me).foldlM (assign r src) dst = some f ∧ Shape ldims ibn n np f ∧
      ∀ x : Key, x.Ok ldims ibn n np → f.data[no f ibn n x]? = some (if mb ≤ x.m ∧ x.m < me then r (g x) else h x) := by
  have hm := mem_loops hp hr
  have hok : ∀ x ∈ loops lp mb me, (key x).Ok ldims ibn n np := fun x hx => ((hm (key x)).1 ⟨x, hx, rfl⟩).1
  obtain ⟨f, h1, h2, h3⟩ := run_spec (fits_puts (fun x => r (g x)) ((loops lp mb me).map key) (by
    intro x hx
    obtain ⟨y, hy, rfl⟩ := List.mem_map.1 hx
    exact hok y hy)) hd hh
  refine ⟨f, by rw [assign_run hs hg r _ hok, h1], h2, fun x hx => ?_⟩
  rw [h3 x hx]
  obtain ⟨a1, a2⟩ := after_puts (fun x => r (g x)) ((loops lp mb me).map key) h x
  have hmx := hm x
  rw [← List.mem_map] at hmx
  split
  · next hc => rw [a1 (hmx.2 ⟨hx, hc⟩)]
  · next hc => rw [a2 fun hh => hc (hmx.1 hh).2]

theorem convert_spec {e : Env R} {x y : Cont R} {g h : Key → R} (hx : Has e x g) (hy : Has e y h) (ht : x.ty ≠ y.ty)
    (h1 : x.grid = y.grid) (h2 : x.comps = y.comps) (h3 : x.ibn = y.ibn) {mb me : ℤ} (hr : RangeOk x.comps mb me) :
    ∃ f, convert e x y mb me = some (x, { y with f := f }) ∧
      Has e { y with f := f } (fun k => if mb ≤ k.m ∧ k.m < me then e.rnd y.ty (g k) else h k) := by
  rcases x with ⟨tx, gx, nx, bx, fx⟩
  rcases y with ⟨ty, gy, ny, yb, fy⟩
  simp only at h1 h2 h3 hr
  subst h1 h2 h3
  rcases tx <;> rcases ty
  · exact absurd rfl ht
  · obtain ⟨f, a1, a2, a3⟩ := loops_spec hx.shape hy.shape hx.shape hx.val hy.val (e.rnd .double) hr
    refine ⟨f, ?_, ⟨a2, a3⟩⟩
    simp only at a1
    simp only [convert, if_true, convertTo, List.lookup, beq_self_eq_true, Fn.call, and_self, a1, Option.map_some]
  · obtain ⟨f, a1, a2, a3⟩ := loops_spec hx.shape hy.shape hy.shape hx.val hy.val (e.rnd .single) hr
    refine ⟨f, ?_, ⟨a2, a3⟩⟩
    simp only at a1
    simp only [convert, if_true, convertTo, convertFrom, List.lookup, beq_self_eq_true, Fn.call, and_self, a1, Option.map_some, Prod.swap]
  · exact absurd rfl ht

theorem has_new (e : Env R) (t : Ty) (grid comps : ℕ) (ibn : Fin 3 → ℕ) : Has e (new e t grid comps ibn) (fun _ => 0) := by
  refine ⟨shape_make, fun x hx => ?_⟩
  have := no_lt (shape_make (R := R)) hx
  show (make _ _ _ _ : Mflds R).data[_]? = _
  rw [make, List.length_replicate] at this
  rw [make]
  exact List.getElem?_replicate_of_lt this

theorem lt_of_some {m : Mem R} {a : ℕ} {c : Cont R} (hc : m[a]?.join = some c) : a < m.length := by
  by_contra hh
  rw [List.getElem?_eq_none (by omega)] at hc
  cases hc

theorem get?_of_join {m : Mem R} {a : ℕ} {c : Cont R} (hc : m[a]?.join = some c) : m[a]? = some (some c) := by
  match h : m[a]?, hc with
  | some (some d), hc => simp only [h, Option.join_some] at hc; rw [hc]

theorem set_self {m : Mem R} {a : ℕ} {c : Cont R} (hc : m[a]?.join = some c) : m.set a (some c) = m := by
  have := get?_of_join hc
  apply List.ext_getElem?
  intro i
  rw [List.getElem?_set]
  split
  · next h => subst h; rw [if_pos (lt_of_some hc), this]
  · rfl

theorem get_same (e : Env R) {m : Mem R} {a : ℕ} {c : Cont R} (hc : m[a]?.join = some c) (mb me : ℤ) :
    getAs e m a c.ty mb me = some (m, a) := by
  simp [getAs, hc]

theorem get_other {e : Env R} {m : Mem R} {a : ℕ} {c : Cont R} (hc : m[a]?.join = some c) {g : Key → R} (hg : Has e c g) {t : Ty}
    (ht : c.ty ≠ t) {mb me : ℤ} (hr : RangeOk c.comps mb me) :
    ∃ f, getAs e m a t mb me = some (m ++ [some ⟨t, c.grid, c.comps, c.ibn, f⟩], m.length) ∧
      Has e ⟨t, c.grid, c.comps, c.ibn, f⟩ (seen e c.ty t mb me g) := by
  obtain ⟨f, h1, h2⟩ := convert_spec hg (has_new e t c.grid c.comps c.ibn) ht rfl rfl rfl hr
  refine ⟨f, ?_, ?_⟩
  · simp only [getAs, hc, Option.bind_eq_bind, Option.bind_some, if_neg ht, h1, Option.pure_def]
    rw [set_self hc]
    rfl
  · rw [seen, if_neg ht]; exact h2

/-- one loan -/
theorem runLoan_spec {e : Env R} {m : Mem R} {a : ℕ} {c : Cont R} (hc : m[a]?.join = some c) {g : Key → R} (hg : Has e c g)
    (l : Loan R) (h : l.Ok (e.ldims c.grid) c.ibn c.comps (e.np c.grid)) : ∃ k f, runLoan e m a l =
      some (m.set a (some { c with f := f }) ++ List.replicate k none) ∧ Has e { c with f := f } (afterLoan e c.ty l g) := by
  have hlt := lt_of_some hc
  obtain ⟨r1, r2, r3⟩ := h
  by_cases ht : c.ty = l.ty
  · obtain ⟨f, a1, a2, a3⟩ := run_spec r3 hg.shape hg.val
    refine ⟨0, f, ?_, ⟨a2, ?_⟩⟩
    · have h1 : (m.set a (some { c with f := f }))[a]?.join = some { c with f := f } := by
        rw [List.getElem?_set_self hlt]; rfl
      rw [runLoan, ← ht, get_same e hc]
      simp only [Option.bind_eq_bind, Option.bind_some, hc, a1, putAs, h1, if_true, Option.pure_def, List.replicate_zero,
        List.append_nil]
    · rw [afterLoan, seen, if_pos ht, if_pos ht]
      exact a3
  · obtain ⟨f, h1, h2⟩ := get_other hc hg ht r1
    obtain ⟨f', a1, a2, a3⟩ := run_spec r3 h2.shape h2.val
    have h3 : Has e ⟨l.ty, c.grid, c.comps, c.ibn, f'⟩ (after (seen e c.ty l.ty l.mb l.me g) l.ops) := ⟨a2, a3⟩
    obtain ⟨f'', b1, b2⟩ := convert_spec h3 hg (Ne.symm ht) rfl rfl rfl r2
    refine ⟨1, f'', ?_, ?_⟩
    · have g1 : ∀ o : Cont R, (m ++ [some o])[m.length]?.join = some o := by
        intro o; rw [List.getElem?_concat_length]; rfl
      have g3 : ∀ o : Option (Cont R), (m ++ [o])[a]?.join = some c := by
        intro o; rw [List.getElem?_append_left hlt, hc]
      have g5 : ∀ o o' : Option (Cont R), (m ++ [o]).set m.length o' = m ++ [o'] := by
        intro o o'; rw [List.set_append_right _ _ (le_refl _)]; simp
      rw [runLoan, h1]
      simp only [Option.bind_eq_bind, Option.bind_some, g1, a1, g5, putAs, g3, if_neg ht, b1, Option.pure_def]
      rw [List.set_append_left _ _ hlt, List.set_append_right _ _ (by simp)]
      simp
    · rw [afterLoan]
      simp only [if_neg ht]
      exact b2

theorem runLoans_spec {e : Env R} {a : ℕ} (ls : List (Loan R)) : ∀ {m : Mem R} {c : Cont R} {g : Key → R},
    m[a]?.join = some c → Has e c g → (∀ l ∈ ls, l.Ok (e.ldims c.grid) c.ibn c.comps (e.np c.grid)) → ∃ k f, runLoans e a m ls =
      some (m.set a (some { c with f := f }) ++ List.replicate k none) ∧ Has e { c with f := f } (afterLoans e c.ty ls g) := by
  induction ls with
  | nil => intro m c g hc hg _; exact ⟨0, c.f, by simp [runLoans, set_self hc], hg⟩
  | cons l ls ih =>
    intro m c g hc hg h
    have hlt := lt_of_some hc
    obtain ⟨k, f, hk, hf⟩ := runLoan_spec hc hg l (h l (by simp))
    rw [runLoans, hk, Option.bind_some]
    obtain ⟨k', f', hk', hf'⟩ := ih (c := { c with f := f }) (m := m.set a (some { c with f := f }) ++ List.replicate k none)
      (by rw [List.getElem?_append_left (by simpa using hlt), List.getElem?_set_self hlt]; rfl) hf (fun l hl => h l (by simp [hl]))
    refine ⟨k + k', f', ?_, hf'⟩
    rw [hk', List.set_append_left _ _ (by simpa using hlt), List.set_set, List.append_assoc, List.replicate_append_replicate]

theorem others_mem {m : Mem R} {a k : ℕ} {o : Option (Cont R)} (b : ℕ) (hb : b ≠ a) :
    (m.set a o ++ List.replicate k none)[b]?.join = m[b]?.join := by
  by_cases h : b < m.length
  · rw [List.getElem?_append_left (by simpa using h), List.getElem?_set_ne (Ne.symm hb)]
  · rw [List.getElem?_append_right (by simp; omega), List.getElem?_eq_none (by omega : m.length ≤ b), List.getElem?_replicate]
    split <;> rfl

theorem has_holds {e : Env R} {c : Cont R} {g : Key → R} (h : Has e c g) : Holds e c g :=
  fun x hx w hw => by rw [get_key h.shape hx hw, h.val x hx]

theorem holds_has {e : Env R} {c : Cont R} {g : Key → R} (h : Holds e c g) (hm : Made e c) : Has e c g := by
  obtain ⟨ops, h1, h2⟩ := hm
  obtain ⟨f, a1, a2, _⟩ := run_spec h1 (shape_make (R := R)) (has_new e c.ty c.grid c.comps c.ibn).val
  rw [h2] at a1
  cases a1
  exact ⟨a2, fun x hx => by rw [← get_key a2 hx (w := .direct) trivial]; exact h x hx .direct trivial⟩

end Psc.LendFields
