import Verif.Model.Basic
import Mathlib.Data.Nat.Bitwise

/-!
# The Hilbert curve
(src/libmrc/src/hilbert.c, and its use in src/libmrc/src/mrc_domain_lib.c)

`bitmask_t` and `halfmask_t` (both unsigned with 64 bits) are modelled by `ℕ`: all values have at most `nDims * nBits` bits, and
`1 << n_total_bits` in `sfc_hilbert_setup` is an `int`, so that at most 30 bits are used and nothing is ever truncated.  The
only place that relies on wrapping is the negation in `adjust_rotation`, where it is modelled.
-/

namespace Psc.Hilbert

/-- `ones`, hilbert.c:40 (for `k ≥ 1`) -/
def ones (k : ℕ) : ℕ := (2 <<< (k - 1)) - 1

/-- `rotateRight`, hilbert.c:44-45 -/
def rotateRight (arg nRots nDims : ℕ) : ℕ := ((arg >>> nRots) ||| (arg <<< (nDims - nRots))) &&& ones nDims

/-- `rotateLeft`, hilbert.c:47-48 -/
def rotateLeft (arg nRots nDims : ℕ) : ℕ := ((arg <<< nRots) ||| (arg >>> (nDims - nRots))) &&& ones nDims

/-- number of passes of `while (bits) bits >>= 1, ++rotation;`, hilbert.c:34-35 -/
def shifts (bits : ℕ) : ℕ := if _h : bits = 0 then 0 else shifts (bits >>> 1) + 1
decreasing_by rw [Nat.shiftRight_eq_div_pow]; omega

/-- `adjust_rotation`, hilbert.c:30-38, with `nd1Ones = ndOnes >> 1`, hilbert.c:151; returns the new `rotation` (the change of
`bits` is not used afterwards). -/
def adjust_rotation (rotation nDims bits : ℕ) : ℕ :=
  let bits := bits &&& ((2 ^ 64 - bits) % 2 ^ 64 &&& (ones nDims >>> 1))
  let rotation := rotation + shifts bits
  let rotation := rotation + 1
  if rotation ≥ nDims then rotation - nDims else rotation

/-- The loop over `d`, hilbert.c:75-83 and 87-93, for one `d`; the state is `(inCoords, coords, utCoords)`. -/
def transposeField (inB utB shiftAmt inFieldEnds inMask utMask : ℕ) (s : ℕ × ℕ × ℕ) (d : ℕ) : ℕ × ℕ × ℕ :=
  let inn := s.1 &&& inMask
  let inCoords := s.1 >>> inB
  if inB % 2 = 1 then
    let inFieldStarts := inFieldEnds <<< (inB - 1)
    let coords := s.2.1 ||| ((inn &&& inFieldStarts) <<< (2 * shiftAmt + d))
    let inn := Nat.ldiff inn inFieldStarts
    let inn := (inn ||| (inn <<< shiftAmt)) &&& utMask
    (inCoords, coords, s.2.2 ||| (inn <<< (d * utB)))
  else
    let inn := (inn ||| (inn <<< shiftAmt)) &&& utMask
    (inCoords, s.2.1, s.2.2 ||| (inn <<< (d * utB)))

/-- The `while` loop of `bitTranspose`, hilbert.c:62-99. -/
def transposeLoop (nDims inB inFieldEnds inMask inCoords coords : ℕ) : ℕ :=
  let utB := inB / 2
  if _h : utB = 0 then coords ||| inCoords
  else
    let shiftAmt := (nDims - 1) * utB
    let utFieldEnds := inFieldEnds ||| (inFieldEnds <<< (shiftAmt + utB))
    let utMask := (utFieldEnds <<< utB) - utFieldEnds
    let s := (List.range nDims).foldl (transposeField inB utB shiftAmt inFieldEnds inMask utMask) (inCoords, coords, 0)
    transposeLoop nDims utB utFieldEnds utMask s.2.2 s.2.1
termination_by inB
decreasing_by omega

/-- `bitTranspose`, hilbert.c:50-102 (`DLOGB_BIT_TRANSPOSE` is defined) -/
def bitTranspose (nDims nBits inCoords : ℕ) : ℕ := transposeLoop nDims nBits 1 (ones nBits) inCoords 0

/-- `for (b = s; b < n; b *= 2) x ^= x >> b;`, hilbert.c:166-167 (with `s = nDims`) and 235-236 (with `s = 1`) -/
def xorShifts (n b x : ℕ) : ℕ := if _h : 0 < b ∧ b < n then xorShifts n (b * 2) (x ^^^ (x >>> b)) else x
termination_by n - b
decreasing_by omega

/-- The `do` loop of `mrc_hilbert_i2c`, hilbert.c:158-165, with `k` digits left (`b = k * nDims`). -/
def i2cLoop (nDims index : ℕ) : (k rotation flipBit coords : ℕ) → ℕ
  | 0, _, _, coords => coords
  | k + 1, rotation, flipBit, coords =>
    let bits := (index >>> (k * nDims)) &&& ones nDims
    let coords := coords <<< nDims
    let coords := coords ||| (rotateLeft bits rotation nDims ^^^ flipBit)
    i2cLoop nDims index k (adjust_rotation rotation nDims bits) (1 <<< rotation) coords

/-- `mrc_hilbert_i2c`, hilbert.c:138-181: coordinate `d` -/
def i2c (nDims nBits index : ℕ) (d : ℕ) : ℕ :=
  if nDims > 1 then
    let coords :=
      if nBits > 1 then
        let nthbits := ones (nDims * nBits) / ones nDims
        let index := index ^^^ ((index ^^^ nthbits) >>> 1)
        let coords := i2cLoop nDims index nBits 0 0 0
        let coords := xorShifts (nDims * nBits) nDims coords
        bitTranspose nBits nDims coords
      else index ^^^ (index >>> 1)
    (coords >>> (d * nBits)) &&& ones nBits
  else index

/-- `for (d = nDims; d--; ) { coords <<= nBits; coords |= coord[d]; }`, hilbert.c:205-209 -/
def join (nBits : ℕ) (coord : ℕ → ℕ) (nDims : ℕ) : ℕ :=
  (List.range nDims).reverse.foldl (fun coords d => (coords <<< nBits) ||| coord d) 0

/-- The `do` loop of `mrc_hilbert_c2i`, hilbert.c:222-230, with `k` digits left. -/
def c2iLoop (nDims coords : ℕ) : (k rotation flipBit index : ℕ) → ℕ
  | 0, _, _, index => index
  | k + 1, rotation, flipBit, index =>
    let bits := (coords >>> (k * nDims)) &&& ones nDims
    let bits := rotateRight (flipBit ^^^ bits) rotation nDims
    let index := index <<< nDims
    let index := index ||| bits
    c2iLoop nDims coords k (adjust_rotation rotation nDims bits) (1 <<< rotation) index

/-- `mrc_hilbert_c2i`, hilbert.c:196-241 -/
def c2i (nDims nBits : ℕ) (coord : ℕ → ℕ) : ℕ :=
  if nDims > 1 then
    let coords := join nBits coord nDims
    let index :=
      if nBits > 1 then
        let nthbits := ones (nDims * nBits) / ones nDims
        let coords := bitTranspose nDims nBits coords
        let coords := coords ^^^ (coords >>> nDims)
        let index := c2iLoop nDims coords nBits 0 0 0
        index ^^^ (nthbits >>> 1)
      else coords
    xorShifts (nDims * nBits) 1 index
  else coord 0

/-! ## Its use to number patches -/

/-- the loop `while (np > (1 << nbits)) nbits++;`, mrc_domain_lib.c:117-120 -/
def nbitsFrom (np nbits : ℕ) : ℕ := if np > 1 <<< nbits then nbitsFrom np (nbits + 1) else nbits
termination_by np - nbits
decreasing_by
  rename_i h
  rw [Nat.one_shiftLeft] at h
  have := Nat.lt_two_pow_self (n := nbits)
  omega

/-- `nbits_max`, mrc_domain_lib.c:123-125 -/
def nbitsMax (np : Fin 3 → ℕ) : ℕ :=
  let nbits := fun d => nbitsFrom (np d) 0
  let m := nbits 0
  let m := if nbits 1 > m then nbits 1 else m
  if nbits 2 > m then nbits 2 else m

/-- `hilbert_dim[0 .. hilbert_nr_dims)`, mrc_domain_lib.c:126-133 -/
def dims (np : Fin 3 → ℕ) : List (Fin 3) := ([0, 1, 2] : List (Fin 3)).filter fun d => nbitsFrom (np d) 0 ≠ 0

/-- `n_total_bits`, mrc_domain_lib.c:135-142 -/
def totalBits (np : Fin 3 → ℕ) : ℕ := (dims np).length * nbitsMax np

/-- `inside`, mrc_domain_lib.c:151-158 -/
def inside (np : Fin 3 → ℕ) (h : ℕ) : Bool :=
  (List.range (dims np).length).all fun i => i2c (dims np).length (nbitsMax np) h i < np ((dims np).getD i 0)

/-- The loop of `sfc_hilbert_setup` that fills `hilbert_map_p_to_h` and `hilbert_map_h_to_p`, mrc_domain_lib.c:147-166; the
first entries of both lists are those written so far, `p` is the length of the first. -/
def maps (np : Fin 3 → ℕ) : List ℕ × List ℤ :=
  (List.range (1 <<< totalBits np)).foldl (fun s h =>
    if inside np h then (s.1 ++ [h], s.2 ++ [(s.1.length : ℤ)]) else (s.1, s.2 ++ [-1])) ([], [])

/-- `sfc_hilbert_idx3_to_idx`, mrc_domain_lib.c:169-184; -1 for positions that are not in the patch grid -/
def idx3_to_idx (np p : Fin 3 → ℕ) : ℤ :=
  if (dims np).length = 0 then 0
  else
    let h := c2i (dims np).length (nbitsMax np) fun i => p ((dims np).getD i 0)
    (maps np).2.getD h (-1)

/-- `sfc_hilbert_idx_to_idx3`, mrc_domain_lib.c:186-201 -/
def idx_to_idx3 (np : Fin 3 → ℕ) (idx : ℕ) : Fin 3 → ℕ :=
  let h := (maps np).1.getD idx 0
  (List.range (dims np).length).foldl (fun p i =>
    Function.update p ((dims np).getD i 0) (i2c (dims np).length (nbitsMax np) h i)) fun _ => 0

end Psc.Hilbert
