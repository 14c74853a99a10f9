import Verif.Model.Basic

/-!
# The bit field of active patches: src/libmrc/src/bitfield3d.c, on x86_64

Simplification: sizes and indices are natural numbers whose products and sums do not overflow `unsigned int`.  `none` is a
failed assertion or an index out of bounds.
-/

namespace Psc.Bitf

/-- `struct bitfield3d`, src/libmrc/include/bitfield3d.h:12-17; `values` has `length` elements, of type
`unsigned long long` (bitfield3d.h:5-7) -/
structure Field where
  values : List (BitVec 64)
  ystride : ℕ
  zstride : ℕ
deriving DecidableEq

/-- `bitfield3d_create`, bitfield3d.c:6-15 -/
def create (nx ny nz : ℕ) : Field :=
  { values := List.replicate ((nx * ny * nz + (8 * 8 - 1)) / (8 * 8)) 0
    ystride := nx
    zstride := nx * ny }

/-- `idx[0] + idx[1] * ystride + idx[2] * zstride`, bitfield3d.c:19 and 30 -/
def Field.bit (f : Field) (c : ℕ × ℕ × ℕ) : ℕ := c.1 + c.2.1 * f.ystride + c.2.2 * f.zstride

/-- `bitfield3d_type mask = 1 << pi`, bitfield3d.c:23 and 36: an `int`, shifted, then converted to 64 bits (sign extended) -/
def mask (pi : ℕ) : BitVec 64 := ((1#32) <<< pi).signExtend 64

/-- `bitfield3d_isset`, bitfield3d.c:17-26; `sizeof(unsigned int) * 8` is 32 -/
def Field.isset (f : Field) (c : ℕ × ℕ × ℕ) : Option Bool := do
  let v ← f.values[f.bit c / 32]?
  some (v &&& mask (f.bit c % 32) != 0)

/-- `bitfield3d_set`, bitfield3d.c:28-45 -/
def Field.set (f : Field) (c : ℕ × ℕ × ℕ) (value : Bool) : Option Field :=
  let i := f.bit c / 32
  if i ≤ f.values.length then do
    let v ← f.values[i]?
    let v := if value then v ||| mask (f.bit c % 32) else v &&& ~~~ mask (f.bit c % 32)
    some { f with values := f.values.set i v }
  else none

/-- `bitfield3d_fill`, bitfield3d.c:47-56 -/
def Field.fill (f : Field) (value : Bool) : Field :=
  { f with values := f.values.map (fun _ => if value then ~~~ 0 else 0) }

/-- `bitfield3d_compare`, bitfield3d.c:58-65; reads beyond `field2` are `none` -/
def Field.compare (f g : Field) : Option ℕ :=
  if f.values.length ≤ g.values.length then some (if f.values = g.values.take f.values.length then 0 else 1) else none

/-- `bitfield3d_merge`, bitfield3d.c:67-76 -/
def Field.merge (out field2 : Field) : Option Field :=
  if out.values.length = field2.values.length then
    some { out with values := List.zipWith (· ||| ·) out.values field2.values }
  else none

/-- `bitfield3d_copy`, bitfield3d.c:104-111 -/
def Field.copy (src : Field) : Field := { values := src.values, ystride := src.ystride, zstride := src.zstride }

/-- `bitfield3d_count_bits_set`, bitfield3d.c:83-102, with `USE_SSE2` -/
def Field.count (f : Field) : ℕ :=
  (f.values.map (fun v => ((List.range 64).filter (fun i => v.getLsbD i)).length)).sum

end Psc.Bitf
