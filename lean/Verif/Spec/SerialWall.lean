import Verif.Spec.Serial
import Verif.Spec.WallPic

/-!
# Independent specification: the same simulation on one undivided grid in a box with walls

No patches, ranks, ghost cells or messages: one list of particles with positions in the whole domain, fields that are functions
of the cell index.  The box is periodic in some directions and closed by two conducting, reflecting walls in the others.
-/

namespace Psc.SerialWall

open Spec Yee

noncomputable section

/-- a simulation in a box, independently of how it is decomposed -/
structure Box where
  /-- global number of cells -/
  gdims : I3
  /-- periodic directions; the others end at walls -/
  per : Fin 3 → Bool
  P : Push.Params
  cfg : Push.Config

/-- directions that are not invariant -/
def Box.act (Q : Box) : Fin 3 → Bool := fun d => !Q.cfg.inv d

/-- length of the box -/
def Box.len (Q : Box) (d : Fin 3) : ℝ := Q.gdims d * Q.P.dx d

/-- the position is behind a wall -/
def Box.Behind (Q : Box) (d : Fin 3) (x : ℝ) : Prop := Q.per d = false ∧ (x < 0 ∨ Q.len d < x)

open Classical in
/-- The particle, moved back into the box: by whole lengths in periodic directions, by reflection at walls. -/
def Box.back (Q : Box) (q : Push.Prt) : Push.Prt :=
  { q with
    x := fun d => if Q.per d then q.x d - ⌊q.x d / Q.len d⌋ * Q.len d
      else if q.x d < 0 then -q.x d else if Q.len d < q.x d then 2 * Q.len d - q.x d else q.x d
    u := fun d => if Q.Behind d (q.x d) then -q.u d else q.u d }

/-- Where the current in direction `m` at index `i` along `d` is found after mirroring at the walls.  Along its own direction
the current is between the nodes `i` and `i + 1`, in the others at the node `i`. -/
def Box.mirror (Q : Box) (m d : Fin 3) (i : ℤ) : ℤ :=
  if Q.per d then i % Q.gdims d
  else if i < 0 then (if m = d then -1 - i else -i)
  else if m = d then (if Q.gdims d ≤ i then 2 * Q.gdims d - 1 - i else i)
  else if Q.gdims d < i then 2 * Q.gdims d - i else i

/-- The mirror image of a current changes its direction if it was along the normal of the wall. -/
def Box.sign (Q : Box) (m : Fin 3) (i : ℤ) : ℝ := if Q.per m = false ∧ (i < 0 ∨ Q.gdims m ≤ i) then -1 else 1

/-- the current in direction `m` at cell `x` -/
def Box.current (Q : Box) (evs : List (Add ℝ)) (m : Fin 3) (x : I3) : ℝ :=
  (evs.map fun e => if e.m = m ∧ (fun d => Q.mirror m d (![e.i, e.j, e.k] d)) = (fun d => if Q.per d then x d % Q.gdims d else x d)
    then Q.sign m (![e.i, e.j, e.k] m) * e.v else 0).sum

/-- the edge in direction `m` at cell `x` lies in a wall -/
def Box.InWall (Q : Box) (m : Fin 3) (x : I3) : Prop := ∃ d, d ≠ m ∧ Q.per d = false ∧ (x d = 0 ∨ x d = Q.gdims d)

/-- what the push does to all particles -/
def push (Q : Box) (s : Serial.State) : List Push.Prt × List (Add ℝ) := Push.pushAll Q.cfg Q.P (Serial.em s.E s.H) s.prts

open Classical in
/-- One time step: push all particles in the fields and add up their current, mirrored at the walls; half a step of `H`, a step
of `E` with no field along the walls, half a step of `H`. -/
def step (Q : Box) (s : Serial.State) : Serial.State :=
  let r := push Q s
  let H1 := faraday Q.act Q.P.dx (1/2 * Q.P.dt) s.E s.H
  let E1 : VF ℝ := fun m x => if Q.InWall m x then 0 else ampere Q.act Q.P.dx Q.P.dt s.E H1 (Q.current r.2) m x
  ⟨r.1.map Q.back, E1, faraday Q.act Q.P.dx (1/2 * Q.P.dt) E1 H1⟩

/-- any number of time steps -/
def run (Q : Box) : ℕ → Serial.State → Serial.State
  | 0, s => s
  | n + 1, s => run Q n (step Q s)

open Classical in
/-- A particle exactly on an upper wall is turned around and put a distance `ε d` below the wall. -/
def Box.nudge (Q : Box) (ε : Fin 3 → ℝ) (q : Push.Prt) : Push.Prt :=
  { q with
    x := fun d => if Q.per d = false ∧ q.x d = Q.len d then Q.len d - ε d else q.x d
    u := fun d => if Q.per d = false ∧ q.x d = Q.len d then -q.u d else q.u d }

/-- the time step with a rule for particles exactly on an upper wall -/
def stepN (Q : Box) (ε : Fin 3 → ℝ) (s : Serial.State) : Serial.State :=
  { step Q s with prts := (push Q s).1.map fun q => Q.back (Q.nudge ε q) }

/-- any number of such steps -/
def runN (Q : Box) (ε : Fin 3 → ℝ) : ℕ → Serial.State → Serial.State
  | 0, s => s
  | n + 1, s => runN Q ε n (stepN Q ε s)

/-- in none of the next `n` steps does the push put a particle exactly on an upper wall -/
def OffWall (Q : Box) : ℕ → Serial.State → Prop
  | 0, _ => True
  | n + 1, s => (∀ q ∈ (push Q s).1, ∀ d, Q.per d = false → q.x d ≠ Q.len d) ∧ OffWall Q n (step Q s)

end

end Psc.SerialWall

namespace Psc.WallPic

open Domain Ddc FieldStep BndFields Spec

noncomputable section

/-- the simulation a decomposed set-up does -/
def Setup.box (S : Setup) : SerialWall.Box := ⟨S.c.gdims, S.c.D.bc, S.P, S.cfg⟩

/-- no open boundaries: every side is periodic or a wall -/
def Closed (S : Setup) : Prop := ∀ d, S.fld_lo d ≠ .open ∧ S.fld_hi d ≠ .open

/-- patch `(r, p)` is at the upper wall in direction `d` -/
def AtWall (S : Setup) (r p : ℕ) (d : Fin 3) : Prop := S.c.D.bc d = false ∧ S.c.off r p d + S.c.ldims d = S.c.gdims d

/-- an edge in direction `m` of the cells of a patch: its own edges and those at its upper end -/
def Edge (S : Setup) (m : Fin 3) (n : I3) : Prop :=
  ∀ d, 0 ≤ n d ∧ n d ≤ S.c.ldims d ∧ (d = m ∨ S.cfg.inv d = true → n d < S.c.ldims d)

/-- a face with normal `m` at the upper end of a patch -/
def TopFace (S : Setup) (m : Fin 3) (n : I3) : Prop :=
  n m = S.c.ldims m ∧ ∀ d, d ≠ m → 0 ≤ n d ∧ n d < S.c.ldims d

/-- The decomposed state `s` represents the undivided state `G`: the same particles in any order; every patch has the global
fields in the cells it owns and in its ghost cells inside the box, and what is at the upper walls: the magnetic field through
them, and no electric field along them. -/
structure Represents (S : Setup) (s : Pic.State) (G : Serial.State) : Prop where
  prts : (Pic.globalPrts S.pic s.prts).Perm G.prts
  perE : ∀ d, Periodic S.c (G.E d)
  perH : ∀ d, Periodic S.c (G.H d)
  E : ∀ d : Fin 3, HoldsIn S.c s.flds (EX + d) (G.E d)
  H : ∀ d : Fin 3, HoldsIn S.c s.flds (HX + d) (G.H d)
  topE : ∀ d m : Fin 3, d ≠ m → S.c.D.bc d = false → ∀ x : I3, x d = S.c.gdims d → G.E m x = 0
  hiE : ∀ r p, S.c.D.Has r p → ∀ d m : Fin 3, d ≠ m → AtWall S r p d → ∀ n, Edge S m n → n d = S.c.ldims d →
    s.flds r p (EX + m, n) = 0
  hiH : ∀ r p, S.c.D.Has r p → ∀ m : Fin 3, AtWall S r p m → ∀ n, TopFace S m n →
    s.flds r p (HX + m, n) = G.H m (fun d => S.c.off r p d + n d)

/-- a millionth of a patch -/
def Setup.millionth (S : Setup) : Fin 3 → ℝ := fun d => S.c.ldims d * S.P.dx d / 1000000

/-- all that is done to the particles before the push is to reorder them within their patch (sorting) -/
def OnlySorts (i : StepIn) : Prop := ∀ r p l, (i.pre r p l).Perm l

/-- The patches have no electric field along the upper walls. -/
def NoFieldAlongTop (S : Setup) (flds : Glob ℝ) : Prop :=
  ∀ r p, S.c.D.Has r p → ∀ d m : Fin 3, d ≠ m → AtWall S r p d → ∀ n, Edge S m n → n d = S.c.ldims d → flds r p (EX + m, n) = 0

/-- Two decomposed states are the same physical state: the same particles, the same fields in every cell, and the same magnetic
field through the upper walls. -/
def SameState (S S' : Setup) (s s' : Pic.State) : Prop :=
  (Pic.globalPrts S.pic s.prts).Perm (Pic.globalPrts S'.pic s'.prts) ∧
  (∀ r p r' p' n n', S.c.D.Has r p → S'.c.D.Has r' p' → Interior S.c n → Interior S'.c n' →
    (∀ d, S.c.off r p d + n d = S'.c.off r' p' d + n' d) →
    ∀ m, EX ≤ m → m < EX + 6 → s.flds r p (m, n) = s'.flds r' p' (m, n')) ∧
  ∀ r p r' p' (m : Fin 3) n n', S.c.D.Has r p → S'.c.D.Has r' p' → AtWall S r p m → AtWall S' r' p' m →
    TopFace S m n → TopFace S' m n' → (∀ d, S.c.off r p d + n d = S'.c.off r' p' d + n' d) →
    s.flds r p (HX + m, n) = s'.flds r' p' (HX + m, n')

end

end Psc.WallPic
