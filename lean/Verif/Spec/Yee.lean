import Verif.Model.Basic

/-!
# Independent specification: discrete Maxwell equations on the Yee grid

`E_d(n)` sits at the middle of the edge from node `n` to `n + e_d`, `H_d(n)` at the centre of the face
normal to `d` whose lowest node is `n`.  Derivatives in directions that are not active vanish.
-/

namespace Psc.Spec.Yee

variable {K : Type*} [Field K]

/-- one step along direction `d` -/
def shift (n : I3) (d : Fin 3) (s : ℤ) : I3 := fun e => if e = d then n e + s else n e

/-- a vector field on the grid -/
abbrev VF (K : Type*) := Fin 3 → I3 → K

/-- forward difference of `f` along `d` -/
def dF (act : Fin 3 → Bool) (dx : R3 K) (f : I3 → K) (d : Fin 3) (n : I3) : K :=
  if act d then (f (shift n d 1) - f n) / dx d else 0

/-- backward difference of `f` along `d` -/
def dB (act : Fin 3 → Bool) (dx : R3 K) (f : I3 → K) (d : Fin 3) (n : I3) : K :=
  if act d then (f n - f (shift n d (-1))) / dx d else 0

/-- curl of an edge field, on faces -/
def curlE (act : Fin 3 → Bool) (dx : R3 K) (E : VF K) (d : Fin 3) (n : I3) : K :=
  dF act dx (E (d + 2)) (d + 1) n - dF act dx (E (d + 1)) (d + 2) n

/-- curl of a face field, on edges -/
def curlH (act : Fin 3 → Bool) (dx : R3 K) (H : VF K) (d : Fin 3) (n : I3) : K :=
  dB act dx (H (d + 2)) (d + 1) n - dB act dx (H (d + 1)) (d + 2) n

/-- divergence of a face field, in cells -/
def divH (act : Fin 3 → Bool) (dx : R3 K) (H : VF K) (n : I3) : K :=
  dF act dx (H 0) 0 n + dF act dx (H 1) 1 n + dF act dx (H 2) 2 n

/-- divergence of an edge field, at nodes -/
def divE (act : Fin 3 → Bool) (dx : R3 K) (E : VF K) (n : I3) : K :=
  dB act dx (E 0) 0 n + dB act dx (E 1) 1 n + dB act dx (E 2) 2 n

/-- Ampère: `E' = E + dt (curl H - J)` -/
def ampere (act : Fin 3 → Bool) (dx : R3 K) (dt : K) (E H J : VF K) : VF K :=
  fun d n => E d n + dt * (curlH act dx H d n - J d n)

/-- Faraday: `H' = H - dt curl E` -/
def faraday (act : Fin 3 → Bool) (dx : R3 K) (dt : K) (E H : VF K) : VF K :=
  fun d n => H d n - dt * curlE act dx E d n

end Psc.Spec.Yee
