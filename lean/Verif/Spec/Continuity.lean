import Verif.Model.Basic

/-!
# Independent specification: discrete charge continuity

A grid function is a function of the three integer indices.  The discrete continuity equation is
`rho' - rho + dt * div j = 0` at every node, with `div` the backward difference in the active
(non-invariant) directions.
-/

namespace Psc.Spec

/-- Backward-difference divergence in the directions selected by `act`. -/
def div {K : Type*} [Field K] (act : Fin 3 → Bool) (dx : R3 K)
    (J : Fin 3 → ℤ → ℤ → ℤ → K) (i j k : ℤ) : K :=
  (if act 0 then (J 0 i j k - J 0 (i-1) j k) / dx 0 else 0) +
  (if act 1 then (J 1 i j k - J 1 i (j-1) k) / dx 1 else 0) +
  (if act 2 then (J 2 i j k - J 2 i j (k-1)) / dx 2 else 0)

/-- The discrete continuity equation at every node. -/
def Continuity {K : Type*} [Field K] (act : Fin 3 → Bool) (dx : R3 K) (dt : K)
    (rho0 rho1 : ℤ → ℤ → ℤ → K) (J : Fin 3 → ℤ → ℤ → ℤ → K) : Prop :=
  ∀ i j k, rho1 i j k - rho0 i j k + dt * div act dx J i j k = 0

/-- all three directions active -/
def xyz : Fin 3 → Bool := ![true, true, true]
/-- x invariant -/
def yz : Fin 3 → Bool := ![false, true, true]
/-- y invariant -/
def xz : Fin 3 → Bool := ![true, false, true]
/-- z invariant -/
def xy : Fin 3 → Bool := ![true, true, false]
/-- only y active -/
def yOnly : Fin 3 → Bool := ![false, true, false]
/-- only z active -/
def zOnly : Fin 3 → Bool := ![false, false, true]

/-- Linear ("tent", cloud-in-cell) weight of a unit charge at distance `s` from a node. -/
def tent {K : Type*} [Field K] [LinearOrder K] (s : K) : K := max 0 (1 - |s|)

/-- Quadratic-spline weight of a unit charge at distance `s` from a node. -/
def spline2 {K : Type*} [Field K] [LinearOrder K] (s : K) : K :=
  if |s| ≤ 1/2 then 3/4 - s^2
  else if |s| ≤ 3/2 then (3/2 - |s|)^2 / 2
  else 0

/-- Charge density on the nodes of a particle of charge `q` at normalised position `x`, linear
weighting in the active directions; in an invariant direction everything is at index 0. -/
def tentRho {K : Type*} [Field K] [LinearOrder K] (act : Fin 3 → Bool) (q : K) (x : R3 K)
    (i j k : ℤ) : K :=
  q * ((if act 0 then tent (x 0 - i) else if i = 0 then 1 else 0) *
       (if act 1 then tent (x 1 - j) else if j = 0 then 1 else 0) *
       (if act 2 then tent (x 2 - k) else if k = 0 then 1 else 0))

/-- Same with quadratic splines. -/
def splineRho {K : Type*} [Field K] [LinearOrder K] (act : Fin 3 → Bool) (q : K) (x : R3 K)
    (i j k : ℤ) : K :=
  q * ((if act 0 then spline2 (x 0 - i) else if i = 0 then 1 else 0) *
       (if act 1 then spline2 (x 1 - j) else if j = 0 then 1 else 0) *
       (if act 2 then spline2 (x 2 - k) else if k = 0 then 1 else 0))

/-- A move that crosses at most one cell boundary in each active direction. -/
def OneCellMove {K : Type*} [Field K] [LinearOrder K] [FloorRing K] (act : Fin 3 → Bool)
    (xm xp : R3 K) : Prop :=
  ∀ d, act d = true → |⌊xm d⌋ - ⌊xp d⌋| ≤ 1

/-- A move shorter than one cell in each active direction. -/
def ShortMove {K : Type*} [Field K] [LinearOrder K] (act : Fin 3 → Bool) (xm xp : R3 K) : Prop :=
  ∀ d, act d = true → |xp d - xm d| < 1

end Psc.Spec
