import Mathlib.Data.Fin.VecNotation
import Mathlib.Data.Rat.Defs
import Mathlib.Tactic.NormNum
import Verif.Lemmas.FieldStorage

/-!
# C105: storage of fields
-/

namespace Psc.Props

open Psc.FieldStorage

/-- **C105.**  After any history of writes and resets, in either way, no access has been outside of the memory, and reading any
component of any cell or ghost point of any patch, in either way, gives the value last written there, or zero if none has been
written since the fields were made or reset. -/
theorem C105_history {R : Type} [Zero R] (ldims ibn : Fin 3 → ℕ) (n np np' : ℕ) (l : List (Op R))
    (hl : Fits ldims ibn n np l np') :
    ∃ f : Mflds R, run (make ldims ibn n np) l = some f ∧ ∀ (x : Key), x.Ok ldims ibn n np' → ∀ w : Path, w.Ok ldims ibn →
      f.get w x.m (x.c 0) (x.c 1) (x.c 2) x.p = some (after (fun _ => 0) l x) := by
  obtain ⟨f, h1, h2, h3⟩ := run_spec hl (shape_make (R := R)) (g := fun _ => 0) (by
    intro x hx
    have := no_lt (shape_make (R := R)) hx
    rw [make, List.length_replicate] at this
    rw [make]
    exact List.getElem?_replicate_of_lt this)
  exact ⟨f, h1, fun x hx w hw => by rw [get_key h2 hx hw, h3 x hx]⟩

/-- **C105.**  The values fill the memory: every element of it, after any history, is the value of exactly one component, cell and
patch; its size is the number of values. -/
theorem C105_filled {R : Type} [Zero R] (ldims ibn : Fin 3 → ℕ) (n np np' : ℕ) (l : List (Op R))
    (hl : Fits ldims ibn n np l np') (f : Mflds R) (hf : run (make ldims ibn n np) l = some f) :
    f.data.length = (ldims 0 + 2 * ibn 0) * (ldims 1 + 2 * ibn 1) * (ldims 2 + 2 * ibn 2) * n * np' ∧
      ∀ o < f.data.length, ∀ w : Path, w.Ok ldims ibn → ∃! x : Key, x.Ok ldims ibn n np' ∧
        f.ref w x.m (x.c 0) (x.c 1) (x.c 2) x.p = o := by
  obtain ⟨f', h1, h2, _⟩ := run_spec hl (shape_make (R := R)) (g := fun _ => 0) (by
    intro x hx
    have := no_lt (shape_make (R := R)) hx
    rw [make, List.length_replicate] at this
    rw [make]
    exact List.getElem?_replicate_of_lt this)
  rw [h1, Option.some.injEq] at hf
  subst hf
  refine ⟨by rw [h2.len, h2.im, h2.im, h2.im], fun o ho w hw => ?_⟩
  rw [h2.len] at ho
  obtain ⟨i, j, k, m, p, hi, hj, hk, hm, hp, rfl⟩ := flat5_surj ho
  rw [h2.im] at hi hj hk
  have hx : Key.Ok ldims ibn n np' ⟨m, ![(i : ℤ) - ibn 0, (j : ℤ) - ibn 1, (k : ℤ) - ibn 2], p⟩ := by
    refine ⟨by constructor <;> simp only <;> omega, fun d => ?_, by constructor <;> simp only <;> omega⟩
    match d with
    | 0 => show _ ≤ (i : ℤ) - ibn 0 ∧ (i : ℤ) - ibn 0 < _; omega
    | 1 => show _ ≤ (j : ℤ) - ibn 1 ∧ (j : ℤ) - ibn 1 < _; omega
    | 2 => show _ ≤ (k : ℤ) - ibn 2 ∧ (k : ℤ) - ibn 2 < _; omega
  have hr := ref_key h2 hx hw
  refine ⟨_, ⟨hx, ?_⟩, ?_⟩
  · rw [hr]
    simp
  · rintro y ⟨hy, hy'⟩
    refine no_inj h2 hy hx ?_
    have h5 := ref_key h2 hy hw
    rw [hy'] at h5
    have h6 : no f' ibn n y = flat5 (f'.box.im 0) (f'.box.im 1) (f'.box.im 2) n i j k m p := by
      unfold no
      exact_mod_cast h5.symm
    rw [h6]
    unfold no
    simp

/-- **C105.**  The values of a patch are next to each other, patch after patch. -/
theorem C105_patches {R : Type} [Zero R] (ldims ibn : Fin 3 → ℕ) (n np : ℕ) (x : Key) (hx : x.Ok ldims ibn n np) (w : Path)
    (hw : w.Ok ldims ibn) :
    let size : ℤ := (ldims 0 + 2 * ibn 0) * (ldims 1 + 2 * ibn 1) * (ldims 2 + 2 * ibn 2) * n
    let o := (make ldims ibn n np : Mflds R).ref w x.m (x.c 0) (x.c 1) (x.c 2) x.p
    x.p * size ≤ o ∧ o < (x.p + 1) * size := by
  intro size o
  have hm := hx.1
  have hp := hx.2.2
  have h2 := shape_make (R := R) (ldims := ldims) (ibn := ibn) (n := n) (np := np)
  have ho : o = _ := ref_key h2 hx hw
  set f := (make ldims ibn n np : Mflds R)
  have hlt := flat5_lt (p := 0) (P := 1) (coord_lt h2 hx 0) (coord_lt h2 hx 1) (coord_lt h2 hx 2) (m := x.m.toNat) (M := n)
    (by omega) (by omega)
  have hsplit : flat5 (f.box.im 0) (f.box.im 1) (f.box.im 2) n (x.c 0 + ibn 0).toNat (x.c 1 + ibn 1).toNat (x.c 2 + ibn 2).toNat
      x.m.toNat x.p.toNat = flat5 (f.box.im 0) (f.box.im 1) (f.box.im 2) n (x.c 0 + ibn 0).toNat (x.c 1 + ibn 1).toNat
        (x.c 2 + ibn 2).toNat x.m.toNat 0 + x.p.toNat * (f.box.im 0 * f.box.im 1 * f.box.im 2 * n) := by
    unfold flat5; ring
  have hs : size = ((f.box.im 0 * f.box.im 1 * f.box.im 2 * n : ℕ) : ℤ) := by
    rw [h2.im, h2.im, h2.im]; push_cast; rfl
  rw [hsplit] at ho
  rw [ho, hs, Nat.cast_add, Nat.cast_mul x.p.toNat, Int.toNat_of_nonneg hp.1]
  rw [Nat.mul_one] at hlt
  generalize f.box.im 0 * f.box.im 1 * f.box.im 2 * n = S at *
  generalize flat5 _ _ _ _ _ _ _ _ _ = a at *
  rw [add_mul, one_mul]
  constructor <;> omega

/-- **C105.**  Both layouts of `kg::SArrayView` put the values of a box at different elements, without gaps. -/
theorem C105_layouts (im : Fin 3 → ℕ) (n : ℕ) (s : ℤ × ℤ × ℤ × ℤ) (hs : s = stridesSOA im n ∨ s = stridesAOS im n) :
    (∀ i j k m : ℕ, i < im 0 → j < im 1 → k < im 2 → m < n →
      0 ≤ at4 s i j k m ∧ at4 s i j k m < im 0 * im 1 * im 2 * n) ∧
    (∀ i j k m i' j' k' m' : ℕ, i < im 0 → j < im 1 → k < im 2 → m < n → i' < im 0 → j' < im 1 → k' < im 2 → m' < n →
      at4 s i j k m = at4 s i' j' k' m' → i = i' ∧ j = j' ∧ k = k' ∧ m = m') ∧
    (∀ o : ℕ, o < im 0 * im 1 * im 2 * n → ∃ i j k m : ℕ, i < im 0 ∧ j < im 1 ∧ k < im 2 ∧ m < n ∧ at4 s i j k m = o) := by
  rcases hs with rfl | rfl
  · have e : ∀ i j k m : ℕ, at4 (stridesSOA im n) i j k m = (flat5 (im 0) (im 1) (im 2) n i j k m 0 : ℕ) := by
      intro i j k m
      unfold at4 stridesSOA flat5
      push_cast
      ring
    refine ⟨fun i j k m hi hj hk hm => ?_, fun i j k m i' j' k' m' hi hj hk hm hi' hj' hk' hm' h => ?_, fun o ho => ?_⟩
    · rw [e]
      have := flat5_lt hi hj hk hm (show 0 < 1 by omega)
      rw [Nat.mul_one] at this
      exact ⟨by omega, by exact_mod_cast this⟩
    · rw [e, e] at h
      obtain ⟨h1, h2, h3, h4, _⟩ := flat5_inj hi hj hk hm hi' hj' hk' hm' (by exact_mod_cast h)
      exact ⟨h1, h2, h3, h4⟩
    · obtain ⟨i, j, k, m, p, hi, hj, hk, hm, hp, rfl⟩ := flat5_surj (P := 1) (by rw [Nat.mul_one]; exact ho)
      obtain rfl : p = 0 := by omega
      exact ⟨i, j, k, m, hi, hj, hk, hm, e i j k m⟩
  · have e : ∀ i j k m : ℕ, at4 (stridesAOS im n) i j k m = (flat5 n (im 0) (im 1) (im 2) m i j k 0 : ℕ) := by
      intro i j k m
      unfold at4 stridesAOS flat5
      push_cast
      ring
    refine ⟨fun i j k m hi hj hk hm => ?_, fun i j k m i' j' k' m' hi hj hk hm hi' hj' hk' hm' h => ?_, fun o ho => ?_⟩
    · rw [e]
      have := flat5_lt hm hi hj hk (show 0 < 1 by omega)
      rw [Nat.mul_one, show n * im 0 * im 1 * im 2 = im 0 * im 1 * im 2 * n by ring] at this
      exact ⟨by omega, by exact_mod_cast this⟩
    · rw [e, e] at h
      obtain ⟨h1, h2, h3, h4, _⟩ := flat5_inj hm hi hj hk hm' hi' hj' hk' (by exact_mod_cast h)
      exact ⟨h2, h3, h4, h1⟩
    · obtain ⟨m, i, j, k, p, hm, hi, hj, hk, hp, rfl⟩ := flat5_surj (A := n) (B := im 0) (C := im 1) (M := im 2) (P := 1) (n := o)
        (by rw [Nat.mul_one, show n * im 0 * im 1 * im 2 = im 0 * im 1 * im 2 * n by ring]; exact ho)
      obtain rfl : p = 0 := by omega
      exact ⟨i, j, k, m, hi, hj, hk, hm, e i j k m⟩

/-- **C105.**  Indices after the last ghost point are not detected: the index after the last one in x is the first ghost point of
the next row.  (C56 is about the accesses of the particle push being in the storage.) -/
theorem C105_outside {R : Type} (f : Mflds R) (w : Path) (hw : w = .direct ∨ w = .view fun _ => false) (m j k p : ℤ) :
    f.get w m (f.box.ib 0 + f.box.im 0) j k p = f.get w m (f.box.ib 0) (j + 1) k p := by
  have e : ∀ i j, f.ref w m i j k p = f.pos m i j k p := by
    intro i j
    rcases hw with rfl | rfl
    · rfl
    · exact viewPos_eq f _ _ _ _ _ (by simp) (by simp) (by simp)
  unfold Mflds.get
  rw [e, e]
  congr 1
  unfold Mflds.pos at5
  ring

/-- **C105.**  A view does not look at indices in its invariant directions, so that values can be referred to with any index
there. -/
theorem C105_invariant {R : Type} (f : Mflds R) (inv : Fin 3 → Bool) (m p : ℤ) (c c' : I3)
    (h : ∀ d, inv d = false → c d = c' d) :
    f.get (.view inv) m (c 0) (c 1) (c 2) p = f.get (.view inv) m (c' 0) (c' 1) (c' 2) p := by
  have e : ∀ d, viewIx inv f.box.ib d (c d) = viewIx inv f.box.ib d (c' d) := by
    intro d
    unfold viewIx
    split_ifs with hd
    · rfl
    · rw [h d (by simpa using hd)]
  unfold Mflds.get Mflds.ref Mflds.viewPos
  simp only [e]

/-- **C105.**  With ghost points in an invariant direction a view refers to the first ghost point instead of the cell: the
condition `Path.Ok` cannot be left out. -/
theorem C105_ghost : ∃ (f f' : Mflds ℚ) (x : Key) (w : Path), f = make ![1, 1, 1] ![1, 0, 0] 1 1 ∧ x.Ok ![1, 1, 1] ![1, 0, 0] 1 1 ∧
    f.put w x.m (x.c 0) (x.c 1) (x.c 2) x.p 5 = some f' ∧ f'.get .direct x.m (x.c 0) (x.c 1) (x.c 2) x.p = some 0 := by
  refine ⟨make ![1, 1, 1] ![1, 0, 0] 1 1, ⟨⟨fun d => -((![1, 0, 0] : Fin 3 → ℕ) d : ℤ), fun d =>
    (![1, 1, 1] : Fin 3 → ℕ) d + 2 * (![1, 0, 0] : Fin 3 → ℕ) d⟩, 1, 1, [5, 0, 0]⟩, ⟨0, fun _ => 0, 0⟩, .view ![true, false, false],
    rfl, ?_, rfl, by decide +kernel⟩
  refine ⟨by norm_num, fun d => ?_, by norm_num⟩
  match d with
  | 0 => decide
  | 1 => decide
  | 2 => decide

/-! ## an instance -/

/-- write a ghost point of the second patch in one way, a cell in the other, start over with three patches, write -/
def fsOps : List (Op ℚ) :=
  [.put (.view ![false, true, false]) ⟨1, ![-1, 0, 2], 1⟩ 5, .put .direct ⟨0, ![0, 0, 0], 0⟩ 7, .reset 3, .put .direct ⟨1, ![1, 0, 1], 2⟩ 9]

/-- the hypotheses of `C105_history` and `C105_filled` are met -/
example : Fits ![2, 1, 2] ![1, 0, 1] 2 2 fsOps 3 := by
  refine .put ?_ ?_ (.put trivial ?_ (.reset (.put trivial ?_ (.nil _))))
  · show ∀ d, _
    decide
  all_goals
    refine ⟨by norm_num, fun d => ?_, by norm_num⟩ <;>
    match d with
    | 0 => decide
    | 1 => decide
    | 2 => decide

/-- the memory after the operations -/
example : ((run (make ![2, 1, 2] ![1, 0, 1] 2 2) fsOps).map fun f => (f.data.length, f.get (.view ![false, true, false]) 1 1 8 1 2, f.get .direct 1 1 0 1 2,
    f.get .direct 0 0 0 0 0)) = some (96, some 9, some 9, some 0) := by
  decide +kernel

/-- the hypotheses of `C105_patches` are met -/
example : Key.Ok ![2, 1, 2] ![1, 0, 1] 2 2 ⟨1, ![-1, 0, 2], 1⟩ := by
  refine ⟨by norm_num, fun d => ?_, by norm_num⟩
  match d with
  | 0 => decide
  | 1 => decide
  | 2 => decide

/-- the arrangements of the unit test, TestSArray.cxx:30-52 -/
example : (stridesSOA ![2, 3, 1] 2, stridesAOS ![2, 3, 1] 2) = ((1, 2, 6, 6), (2, 4, 12, 1)) := by decide +kernel

end Psc.Props
