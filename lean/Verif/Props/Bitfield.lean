import Verif.Spec.Bitfield
import Mathlib.Tactic.Linarith
import Mathlib.Tactic.Ring

/-!
# C43: the bit field behaves as a set of cells
-/

namespace Psc.Bitf

theorem mask_bit (p q : ℕ) (hp : p < 32) (hq : q < 32) : (mask p).getLsbD q = decide (q = p) := by
  unfold mask
  rw [BitVec.getLsbD_signExtend]
  simp only [show q < 64 by omega, hq, if_true, decide_true, Bool.true_and]
  rw [BitVec.getLsbD_shiftLeft]
  by_cases h : q = p
  · subst h; simp [hq]
  · by_cases h' : q < p
    · simp [hq, h', h]
    · have : q - p ≠ 0 := by omega
      simp [hq, h', h, this]

theorem mask_top (p q : ℕ) (hq : 32 ≤ q) (hq' : q < 64) : (mask p).getLsbD q = (mask p).getLsbD 31 := by
  unfold mask
  rw [BitVec.getLsbD_signExtend, BitVec.getLsbD_signExtend]
  simp [show ¬ q < 32 by omega, hq']
  by_cases h : p = 31
  · simp [h]
  · by_cases h' : 31 < p
    · simp [h, h']
    · have : 31 - p ≠ 0 := by omega
      simp [h, this]

/-- if a bit of the upper half of the word is set then bit 31 is set: what `isset` tests is bit `p` -/
theorem and_mask_ne (v : BitVec 64) (p : ℕ) (hp : p < 32) (hv : ∀ q, 32 ≤ q → q < 64 → v.getLsbD q = true → v.getLsbD 31 = true) :
    (v &&& mask p != 0) = v.getLsbD p := by
  by_cases h : v.getLsbD p = true
  · rw [h, bne_iff_ne]
    intro e
    have := congrArg (fun w => BitVec.getLsbD w p) e
    simp [mask_bit p p hp hp, h] at this
  · have hf : v.getLsbD p = false := by simpa using h
    rw [hf]
    have : v &&& mask p = 0 := by
      apply BitVec.eq_of_getLsbD_eq
      intro i hi
      rw [BitVec.getLsbD_and]
      by_cases hi32 : i < 32
      · rw [mask_bit p i hp hi32]
        by_cases e : i = p
        · subst e; simp [hf]
        · simp [e]
      · by_cases hm : (mask p).getLsbD i = true
        · rw [mask_top p i (by omega) hi, mask_bit p 31 hp (by omega)] at hm
          have hp31 : p = 31 := by simpa using (of_decide_eq_true hm).symm
          subst hp31
          have : v.getLsbD i = false := by
            by_contra hc
            have := hv i (by omega) hi (by simpa using hc)
            rw [this] at hf; cases hf
          simp [this]
        · simp [Bool.eq_false_iff.mpr hm]
    rw [this]; rfl

/-- if a bit of the upper half of the word is set then bit 31 is set -/
def Top (v : BitVec 64) : Prop := ∀ q, 32 ≤ q → q < 64 → v.getLsbD q = true → v.getLsbD 31 = true

theorem top_or {v w : BitVec 64} (hv : Top v) (hw : Top w) : Top (v ||| w) := by
  intro q h1 h2 h
  rw [BitVec.getLsbD_or, Bool.or_eq_true] at h ⊢
  exact h.imp (hv q h1 h2) (hw q h1 h2)

theorem top_mask (p : ℕ) : Top (mask p) := by
  intro q h1 h2 h
  rwa [mask_top p q h1 h2] at h

theorem top_clear {v : BitVec 64} (hv : Top v) (p : ℕ) : Top (v &&& ~~~ mask p) := by
  intro q h1 h2 h
  simp only [BitVec.getLsbD_and, BitVec.getLsbD_not, Bool.and_eq_true, h2, decide_true, Bool.true_and] at h ⊢
  rw [mask_top p q h1 h2] at h
  exact ⟨hv q h1 h2 h.1, by simpa using h.2⟩

open Psc.Spec

/-- bit number of a cell -/
def bitOf (nx ny : ℕ) (c : Cell) : ℕ := c.1 + c.2.1 * nx + c.2.2 * (nx * ny)

theorem digits {n a a' b b' : ℕ} (ha : a < n) (ha' : a' < n) (h : a + b * n = a' + b' * n) : a = a' ∧ b = b' := by
  have h1 : (a + b * n) % n = a := by rw [Nat.add_mul_mod_self_right, Nat.mod_eq_of_lt ha]
  have h2 : (a' + b' * n) % n = a' := by rw [Nat.add_mul_mod_self_right, Nat.mod_eq_of_lt ha']
  have e : a = a' := by rw [← h1, ← h2, h]
  subst e
  have h3 : b * n = b' * n := by omega
  exact ⟨rfl, Nat.eq_of_mul_eq_mul_right (by omega) h3⟩

theorem digit_lt {n a b m : ℕ} (ha : a < n) (hb : b < m) : a + b * n < n * m := by
  have : (b + 1) * n ≤ m * n := Nat.mul_le_mul_right n hb
  rw [Nat.add_mul, Nat.one_mul] at this
  rw [Nat.mul_comm n m]
  omega

theorem bitOf_lt {nx ny nz : ℕ} {c : Cell} (h : InField nx ny nz c) : bitOf nx ny c < nx * ny * nz :=
  digit_lt (digit_lt h.1 h.2.1) h.2.2

theorem bitOf_inj {nx ny nz : ℕ} {c d : Cell} (hc : InField nx ny nz c) (hd : InField nx ny nz d)
    (h : bitOf nx ny c = bitOf nx ny d) : c = d := by
  obtain ⟨h1, h2⟩ := digits (digit_lt hc.1 hc.2.1) (digit_lt hd.1 hd.2.1) h
  obtain ⟨h3, h4⟩ := digits hc.1 hd.1 h1
  exact Prod.ext h3 (Prod.ext h4 h2)

theorem run_spec (nx ny nz : ℕ) (h0 : 0 < nx * ny * nz) (hN : nx * ny * nz ≤ 32) : ∀ h : BitHist, h.Ok nx ny nz →
    ∃ v, h.run nx ny nz = some ⟨[v], nx, nx * ny⟩ ∧ Top v ∧
      ∀ c, InField nx ny nz c → v.getLsbD (bitOf nx ny c) = h.cells c
  | .create, _ => by
    refine ⟨0, ?_, ?_, ?_⟩
    · have : (nx * ny * nz + (8 * 8 - 1)) / (8 * 8) = 1 := by omega
      simp only [BitHist.run, create, this]
      rfl
    · intro q _ _ h; simp at h
    · intro c _; simp [BitHist.cells]
  | .set h c value, hok => by
    obtain ⟨v, hv, htop, hbits⟩ := run_spec nx ny nz h0 hN h hok.1
    have hlt := bitOf_lt hok.2
    have hb : Field.bit ⟨[v], nx, nx * ny⟩ c = bitOf nx ny c := rfl
    have hdiv : bitOf nx ny c / 32 = 0 := by omega
    have hmod : bitOf nx ny c % 32 = bitOf nx ny c := by omega
    refine ⟨if value then v ||| mask (bitOf nx ny c) else v &&& ~~~ mask (bitOf nx ny c), ?_, ?_, ?_⟩
    · simp only [BitHist.run, hv, Option.bind_eq_bind, Option.bind_some, Field.set, hb, hdiv, hmod]
      simp
    · cases value
      · exact top_clear htop _
      · exact top_or htop (top_mask _)
    · intro d hd
      have hlt' := bitOf_lt hd
      have hm := mask_bit (bitOf nx ny c) (bitOf nx ny d) (by omega) (by omega)
      simp only [BitHist.cells]
      by_cases e : d = c
      · subst e
        rw [if_pos rfl]
        simp only [decide_true] at hm
        cases value
        · simp [hm, show bitOf nx ny d < 64 by omega]
        · simp [hm]
      · rw [if_neg e, ← hbits d hd]
        have hne : bitOf nx ny d ≠ bitOf nx ny c := fun h' => e (bitOf_inj hd hok.2 h')
        rw [decide_eq_false hne] at hm
        cases value
        · have h64 : bitOf nx ny d < 64 := by omega
          simp only [Bool.false_eq_true, if_false, BitVec.getLsbD_and, BitVec.getLsbD_not, hm, h64, decide_true,
            Bool.not_false, Bool.and_true]
        · simp [hm]
  | .fill h value, hok => by
    obtain ⟨v, hv, _, _⟩ := run_spec nx ny nz h0 hN h hok
    refine ⟨if value then ~~~ 0 else 0, ?_, ?_, ?_⟩
    · simp only [BitHist.run, hv, Option.bind_eq_bind, Option.bind_some, Field.fill, List.map_cons, List.map_nil]
    · intro q _ _ h
      cases value
      · simp at h
      · simp
    · intro c hc
      have := bitOf_lt hc
      cases value
      · simp [BitHist.cells]
      · have h64 : bitOf nx ny c < 64 := by omega
        simp only [BitHist.cells, if_true, BitVec.getLsbD_not, h64, decide_true, Bool.true_and]
        simp
  | .merge h g, hok => by
    obtain ⟨v, hv, ht, hb⟩ := run_spec nx ny nz h0 hN h hok.1
    obtain ⟨w, hw, ht', hb'⟩ := run_spec nx ny nz h0 hN g hok.2
    refine ⟨v ||| w, ?_, top_or ht ht', ?_⟩
    · simp [BitHist.run, hv, hw, Field.merge]
    · intro c hc
      simp [BitHist.cells, hb c hc, hb' c hc]
  | .copy h, hok => by
    obtain ⟨v, hv, ht, hb⟩ := run_spec nx ny nz h0 hN h hok
    exact ⟨v, by simp [BitHist.run, hv, Field.copy], ht, hb⟩

end Psc.Bitf

namespace Psc.Props

open Psc.Bitf Psc.Spec

/-- C43.  For every field of up to 32 cells and every history of creating, setting, clearing, filling, merging and copying: no
operation fails, and the test of every cell gives its membership in the set of cells described by the history.

Missing for the full statement: fields of more than 32 cells, for which it is false, see below. -/
theorem C43_set_partial (nx ny nz : ℕ) (hN : nx * ny * nz ≤ 32) (h : BitHist) (hok : h.Ok nx ny nz) (c : Cell)
    (hc : InField nx ny nz c) : ∃ f, h.run nx ny nz = some f ∧ f.isset c = some (h.cells c) := by
  have hlt := bitOf_lt hc
  obtain ⟨v, hv, ht, hb⟩ := run_spec nx ny nz (by omega) hN h hok
  refine ⟨_, hv, ?_⟩
  have hbit : Field.bit ⟨[v], nx, nx * ny⟩ c = bitOf nx ny c := rfl
  have hdiv : bitOf nx ny c / 32 = 0 := by omega
  have hmod : bitOf nx ny c % 32 = bitOf nx ny c := by omega
  simp only [Field.isset, hbit, hdiv, hmod, List.getElem?_cons_zero, Option.bind_eq_bind, Option.bind_some]
  rw [and_mask_ne v _ (by omega) ht, hb c hc]

/-- a 2 x 3 x 4 field, filled, with a cell cleared, merged with one with a cell set -/
example : (4 : ℕ) * 2 * 4 ≤ 32 ∧
    (BitHist.merge (.set (.fill .create true) (3, 1, 3) false) (.set .create (0, 1, 2) true)).Ok 4 2 4 ∧
    InField 4 2 4 (3, 1, 3) := by
  simp [BitHist.Ok, InField]

/-- C43 fails for every field of more than 32 cells: testing the last cell, or setting it, of a newly created field accesses
memory outside of the field's array. -/
theorem C43_violation (nx ny nz : ℕ) (hN : 32 < nx * ny * nz) (value : Bool) :
    let c : Cell := (nx - 1, ny - 1, nz - 1)
    InField nx ny nz c ∧ (create nx ny nz).isset c = none ∧ (create nx ny nz).set c value = none := by
  intro c
  have hx : 0 < nx := Nat.pos_of_ne_zero (by rintro rfl; simp at hN)
  have hy : 0 < ny := Nat.pos_of_ne_zero (by rintro rfl; simp at hN)
  have hz : 0 < nz := Nat.pos_of_ne_zero (by rintro rfl; simp at hN)
  have e : (create nx ny nz).bit c = nx * ny * nz - 1 := by
    obtain ⟨a, rfl⟩ := Nat.exists_eq_succ_of_ne_zero hx.ne'
    obtain ⟨b, rfl⟩ := Nat.exists_eq_succ_of_ne_zero hy.ne'
    obtain ⟨d, rfl⟩ := Nat.exists_eq_succ_of_ne_zero hz.ne'
    show a + b * (a + 1) + d * ((a + 1) * (b + 1)) = (a + 1) * (b + 1) * (d + 1) - 1
    have : (a + 1) * (b + 1) * (d + 1) = a + b * (a + 1) + d * ((a + 1) * (b + 1)) + 1 := by ring
    omega
  have hlen : (create nx ny nz).values.length = (nx * ny * nz + 63) / 64 := by simp [create]
  have hout : (create nx ny nz).values[(create nx ny nz).bit c / 32]? = none := by
    rw [List.getElem?_eq_none_iff, hlen, e]
    omega
  refine ⟨⟨by show nx - 1 < nx; omega, by show ny - 1 < ny; omega, by show nz - 1 < nz; omega⟩, ?_, ?_⟩
  · simp only [Field.isset, hout, Option.bind_eq_bind, Option.bind_none]
  · simp only [Field.set, hout, Option.bind_eq_bind, Option.bind_none, ite_self]

/-- the count of bits that are set, which the domain uses as its number of patches, counts bits that are not cells: 64 for a
filled field of one cell, 33 for a field of 32 cells of which the last is set -/
theorem C43_count_violation :
    ((create 1 1 1).fill true).count = 64 ∧
    ((create 4 2 4).set (3, 1, 3) true).map Field.count = some 33 := by
  constructor <;> decide +kernel

/-- the comparison reports a difference between two fields with the same cells -/
theorem C43_compare_violation :
    let f := (create 1 1 1).fill true
    ∃ g, (create 1 1 1).set (0, 0, 0) true = some g ∧ f.isset (0, 0, 0) = g.isset (0, 0, 0) ∧ f.compare g = some 1 := by
  refine ⟨⟨[1], 1, 1⟩, by decide +kernel, by decide +kernel, by decide +kernel⟩

end Psc.Props
