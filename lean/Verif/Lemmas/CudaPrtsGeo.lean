import Verif.Spec.CudaPrts
import Verif.Lemmas.CudaGrid

/-!
# Blocks of particles
-/

namespace Psc.CudaPrts

open Psc.Cuda
open Psc.A2 (Prt checkInPatchMod checkDir)

variable {K : Type} [Field K] [LinearOrder K] [IsStrictOrderedRing K] [FloorRing K]

theorem bMx_eq {g : Ix} (hg : g.Ok) (d : Fin 3) : g.bMx d = g.ldims d / g.bs d := by
  unfold Ix.bMx
  split_ifs with h
  · obtain ⟨rfl, h⟩ := h
    obtain ⟨h1, h2⟩ := hg.invar h
    rw [h1, h2]
  · rfl

theorem inPatch_iff (e : Env K) (x : R3 K) : InPatch e x ↔ ∀ d, 0 ≤ cell e x d ∧ cell e x d < e.g.ldims d := by
  unfold InPatch cell Psc.Bndp.cellPosition
  refine forall_congr' fun d => ?_
  rw [Int.floor_nonneg, Int.floor_lt]
  simp

theorem blockPos_some {e : Env K} (hg : e.g.Ok) {x : R3 K} (h : InPatch e x) :
    blockPos e.g (cell e x) = some (fun d => (cell e x d).toNat / e.g.bs d) ∧
      ∀ d, (cell e x d).toNat / e.g.bs d < e.g.bMx d := by
  rw [inPatch_iff] at h
  have h' : ∀ d, (cell e x d).toNat / e.g.bs d < e.g.bMx d := by
    intro d
    rw [bMx_eq hg]
    obtain ⟨k, hk⟩ := hg.dvd d
    have h0 := hg.pos d
    obtain ⟨h1, h2⟩ := h d
    rw [Nat.div_lt_iff_lt_mul h0, Nat.div_mul_cancel (hg.dvd d)]
    omega
  refine ⟨if_pos fun d => ⟨(h d).1, h' d⟩, h'⟩

theorem blockIndex_some {e : Env K} (hg : e.g.Ok) {x : R3 K} (h : InPatch e x) (p : ℕ) :
    ∃ r, blockIndex e x p = some r ∧ (p < e.g.nPatches → r < e.g.nBlocks) ∧ r / e.g.bpp = p ∧ (blockAt e.g r).p = p ∧
      InBlock e (blockAt e.g r) x := by
  obtain ⟨h1, h2⟩ := blockPos_some hg h
  set b : N3 := fun d => (cell e x d).toNat / e.g.bs d with hb
  have hp := posOf_blockNo e.g.bMx (p := p) (h2 0) (h2 1) (h2 2)
  have ha : blockAt e.g (blockNo e.g.bMx p (b 0) (b 1) (b 2)) = theBlock e.g p (b 0) (b 1) (b 2) :=
    (theBlock_eq e.g (h2 0) (h2 1) (h2 2)).symm
  refine ⟨blockNo e.g.bMx p (b 0) (b 1) (b 2), ?_, ?_, ?_, ?_, ?_⟩
  · unfold blockIndex; rw [h1]; rfl
  · intro hp; exact blockNo_lt e.g.bMx hp (h2 0) (h2 1) (h2 2)
  · have := congrArg Prod.fst hp
    simp only [posOf] at this
    rw [Nat.div_div_eq_div_mul, Nat.div_div_eq_div_mul, ← Nat.mul_assoc] at this
    exact this
  · rw [ha]; rfl
  · rw [ha]
    intro d
    have hd : (![b 0, b 1, b 2] : Fin 3 → ℕ) d = b d := by fin_cases d <;> rfl
    show ((((![b 0, b 1, b 2] : Fin 3 → ℕ) d) * e.g.bs d : ℕ) : K) ≤ _ ∧ _ < (((![b 0, b 1, b 2] : Fin 3 → ℕ) d * e.g.bs d : ℕ) : K) + _
    rw [hd]
    have hc := (inPatch_iff e x).1 h d
    have h0 := hg.pos d
    have e1 : b d * e.g.bs d ≤ (cell e x d).toNat := Nat.div_mul_le_self _ _
    have e2 : (cell e x d).toNat < b d * e.g.bs d + e.g.bs d := by
      have := Nat.lt_succ_iff.2 (le_refl ((cell e x d).toNat / e.g.bs d))
      rw [Nat.div_lt_iff_lt_mul h0, Nat.succ_mul] at this
      exact this
    have f1 : (cell e x d : K) ≤ x d * e.dxi d := Int.floor_le _
    have f2 : x d * e.dxi d < (cell e x d : K) + 1 := Int.lt_floor_add_one _
    have f3 : ((cell e x d).toNat : ℤ) = cell e x d := Int.toNat_of_nonneg hc.1
    have f4 : (((cell e x d).toNat : ℕ) : K) = (cell e x d : K) := by
      rw [← Int.cast_natCast, f3]
    constructor
    · refine le_trans ?_ f1
      rw [← f4]
      exact_mod_cast e1
    · refine lt_of_lt_of_le f2 ?_
      rw [← f4]
      exact_mod_cast e2

theorem blockIndex_none {e : Env K} (hg : e.g.Ok) {x : R3 K} (h : ¬InPatch e x) (p : ℕ) : blockIndex e x p = none := by
  unfold blockIndex
  have : blockPos e.g (cell e x) = none := by
    refine if_neg fun hc => h ((inPatch_iff e x).2 fun d => ⟨(hc d).1, ?_⟩)
    have h1 := (hc d).2
    rw [bMx_eq hg, Nat.div_lt_iff_lt_mul (hg.pos d), Nat.div_mul_cancel (hg.dvd d)] at h1
    have := (hc d).1
    omega
  rw [this]
  rfl

theorem inPatch_of_blockIndex {e : Env K} (hg : e.g.Ok) {x : R3 K} {p r : ℕ} (h : blockIndex e x p = some r) :
    InPatch e x := by
  by_contra hc
  rw [blockIndex_none hg hc] at h
  simp at h

theorem check_inPatch {e : Env K} {q : Prt K} (h : InPatch e q.x) : check e q = some q := by
  rw [inPatch_iff] at h
  have key : ∀ d, checkDir e.dxi (fun d => (e.g.ldims d : ℤ)) q.x d = some q.x := by
    intro d
    obtain ⟨h1, h2⟩ := h d
    unfold cell at h1 h2
    unfold checkDir
    have hn : ¬(Psc.Bndp.cellPosition e.dxi (q.x d) d < 0 ∨ Psc.Bndp.cellPosition e.dxi (q.x d) d ≥ e.g.ldims d) := by omega
    simp only [if_neg hn]
    exact if_pos ⟨h1, h2⟩
  unfold check checkInPatchMod
  have : (List.finRange 3).foldlM (checkDir e.dxi fun d => (e.g.ldims d : ℤ)) q.x = some q.x := by
    have : ∀ l : List (Fin 3), l.foldlM (checkDir e.dxi fun d => (e.g.ldims d : ℤ)) q.x = some q.x := by
      intro l
      induction l with
      | nil => rfl
      | cons a l ih => rw [List.foldlM_cons, key a]; exact ih
    exact this _
  rw [this]
  rfl

open Classical in
/-- block number after a move of a particle of patch `p` -/
noncomputable def code (e : Env K) (p : ℕ) (x : R3 K) : ℕ :=
  if InPatch e x then (blockIndex e x p).getD 0 else e.g.nBlocks + p

theorem code_in {e : Env K} {x : R3 K} (h : InPatch e x) {p r : ℕ} (hr : blockIndex e x p = some r) : code e p x = r := by
  rw [code, if_pos h, hr]; rfl

theorem code_out {e : Env K} {x : R3 K} (h : ¬InPatch e x) (p : ℕ) : code e p x = e.g.nBlocks + p := if_neg h

theorem code_lt {e : Env K} (hg : e.g.Ok) {x : R3 K} {p : ℕ} (hp : p < e.g.nPatches) :
    e.g.nBlocks ≤ code e p x ↔ ¬InPatch e x := by
  by_cases h : InPatch e x
  · obtain ⟨r, h1, h2, _⟩ := blockIndex_some hg h p
    rw [code_in h h1]
    have := h2 hp
    simp [h]; omega
  · simp [code_out h, h]

/-- in two dimensions x has to be in the patch -/
def XOk (e : Env K) (x : R3 K) : Prop := e.g.gdimX = 1 → 0 ≤ cell e x 0 ∧ cell e x 0 < 1

theorem xOk_of_inPatch {e : Env K} (hg : e.g.Ok) {x : R3 K} (h : InPatch e x) : XOk e x := by
  intro hx
  have := (inPatch_iff e x).1 h 0
  rw [(hg.invar hx).2] at this
  exact_mod_cast this

theorem movedTo_eq {e : Env K} (hg : e.g.Ok) {x : R3 K} (hx : XOk e x) (p : ℕ) : movedTo e x p = some (code e p x) := by
  unfold movedTo
  split_ifs with h1
  · obtain ⟨x1, x2⟩ := hx h1
    have hb0 : e.g.bMx 0 = 1 := by simp [Ix.bMx, h1]
    obtain ⟨s0, l0⟩ := hg.invar h1
    congr 1
    unfold blockNoShift
    have hdir : ∀ d, (cell e x d < 0 ∨ e.g.bMx d ≤ (cell e x d).toNat / e.g.bs d) ↔
        ¬(0 ≤ cell e x d ∧ cell e x d < e.g.ldims d) := by
      intro d
      rw [bMx_eq hg, Nat.le_div_iff_mul_le (hg.pos d), Nat.div_mul_cancel (hg.dvd d)]
      omega
    by_cases h : InPatch e x
    · obtain ⟨hp, hl⟩ := blockPos_some hg h
      have hc := (inPatch_iff e x).1 h
      have h1' : ¬(cell e x 1 < 0 ∨ e.g.bMx 1 ≤ (cell e x 1).toNat / e.g.bs 1) := by rw [hdir]; exact not_not.2 (hc 1)
      have h2' : ¬(cell e x 2 < 0 ∨ e.g.bMx 2 ≤ (cell e x 2).toNat / e.g.bs 2) := by rw [hdir]; exact not_not.2 (hc 2)
      have hz : (cell e x 0).toNat / e.g.bs 0 = 0 := by rw [s0, Nat.div_one]; omega
      rw [if_neg (not_or.2 ⟨h1', h2'⟩)]
      unfold code
      rw [if_pos h]
      unfold blockIndex
      rw [hp]
      simp only [Option.map_some, Option.getD_some, hb0, hz, Nat.mul_one, Nat.add_zero]
    · rw [code_out h, if_pos]
      by_contra hn
      rw [not_or, hdir, hdir, not_not, not_not] at hn
      refine h ((inPatch_iff e x).2 fun d => ?_)
      fin_cases d
      · exact ⟨x1, by show cell e x 0 < e.g.ldims 0; rw [l0]; exact_mod_cast x2⟩
      · exact hn.1
      · exact hn.2
  · unfold blockIndexFromCell
    by_cases h : InPatch e x
    · rw [if_neg]
      · obtain ⟨r, h1, _⟩ := blockIndex_some hg h p
        rw [code_in h h1, h1]
      · rintro ⟨d, hd⟩
        have := (inPatch_iff e x).1 h d
        omega
    · rw [if_pos, code_out h]
      by_contra hn
      refine h ((inPatch_iff e x).2 fun d => ?_)
      by_contra hd
      exact hn ⟨d, by omega⟩

end Psc.CudaPrts
