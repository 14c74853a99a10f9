import Verif.Model.SetupFields
import Verif.Spec.Serial

/-!
# Independent specification: where the components of the fields live

`E` and `J` on the edges of the cells: component `d` half a cell further in direction `d`.  `H` on the faces: component `d`
half a cell further in the other two directions.
-/

namespace Psc.SetupFields

open Domain Ddc FieldStep Spec Spec.Yee

section
variable {K : Type} [Field K]

/-- position of the corner of global cell `x`, moved by `o` cells -/
def posOf (G : Geom K) (x : I3) (o : R3 K) : R3 K := fun d => G.corner d + ((x d : K) + o d) * G.dx d

/-- middle of the edge in direction `e` -/
def edge (G : Geom K) (e : Fin 3) (x : I3) : R3 K := posOf G x fun d => if d = e then 1 / 2 else 0

/-- middle of the face perpendicular to direction `e` -/
def face (G : Geom K) (e : Fin 3) (x : I3) : R3 K := posOf G x fun d => if d = e then 0 else 1 / 2

/-- the corner -/
def node (G : Geom K) (x : I3) : R3 K := posOf G x fun _ => 0

/-- the centre of the cell -/
def centre (G : Geom K) (x : I3) : R3 K := posOf G x fun _ => 1 / 2

/-- The storage has the same number of ghost points in all directions that are not invariant, and none in the others. -/
structure Ghosts (c : Cfg) (w : ℤ) : Prop where
  ldims : ∀ d, 0 < c.ldims d
  nonneg : 0 ≤ w
  some : ∃ d, c.gdims d ≠ 1
  act : ∀ d, c.gdims d ≠ 1 → c.ibn d = w
  inv : ∀ d, c.gdims d = 1 → c.ibn d = 0

/-- the patches hold the user's function in all components, in the cells they own and in their ghost cells, at the global
position of the cell -/
def Sampled (c : Cfg) (G : Geom K) (func : ℕ → R3 K → K) (old new : Glob K) : Prop :=
  ∀ r p, c.D.Has r p → ∀ n, Stored c n → ∀ e : Fin 3,
    let x : I3 := fun d => c.off r p d + n d
    new r p (HX + e, n) = old r p (HX + e, n) + func (HX + e) (face G e x) ∧
    new r p (EX + e, n) = old r p (EX + e, n) + func (EX + e) (edge G e x) ∧
    new r p (JXI + e, n) = old r p (JXI + e, n) + func (JXI + e) (edge G e x)

end

noncomputable section

/-- The initial state of the undivided simulation: the particles, and the user's functions at the middle of the edges and
faces of every cell of the domain, continued periodically. -/
def initial (Q : Serial.Problem) (G : Geom ℝ) (func : ℕ → R3 ℝ → ℝ) (prts : List Push.Prt) : Serial.State where
  prts := prts
  E := fun e x => func (EX + e) (edge G e (Q.wrapI x))
  H := fun e x => func (HX + e) (face G e (Q.wrapI x))

end

end Psc.SetupFields
