import Verif.Model.Moments
import Verif.Spec.Serial
import Verif.Spec.BndFields
import Verif.Spec.Reflecting

/-!
# Independent specification: moments of the particle distribution on the undivided domain
-/

namespace Psc.Moments

open Domain Ddc FieldStep Spec

noncomputable section

/-- what is averaged -/
inductive Quantity
  | number
  | velocity (d : Fin 3)
  | momentum (d : Fin 3)
  | charge
  | current (d : Fin 3)
  | stress (a b : Fin 3)

/-- number of real particles a macro-particle stands for: it carries the charge `qw = q w` -/
def weight (P : Push.Params) (q : Push.Prt) : ℝ := q.qw / P.q q.kind

/-- velocity `u / sqrt(1 + u²)` -/
def velocity (q : Push.Prt) (d : Fin 3) : ℝ := q.u d / Real.sqrt (1 + ∑ e, q.u e ^ 2)

/-- contribution of a macro-particle to a quantity -/
def Quantity.of (P : Push.Params) (q : Push.Prt) : Quantity → ℝ
  | number => weight P q
  | velocity d => weight P q * Moments.velocity q d
  | momentum d => weight P q * P.m q.kind * q.u d
  | charge => weight P q * P.q q.kind
  | current d => weight P q * P.q q.kind * Moments.velocity q d
  | stress a b => weight P q * P.m q.kind * q.u a * Moments.velocity q b

/-- a component of a moment: name, which particles, what quantity -/
structure Component where
  name : String
  of : Push.Prt → Bool
  what : Quantity

/-- the components for one species: number `k` and name -/
def perKind (l : List (String × Quantity)) (kinds : List String) : List Component :=
  kinds.zipIdx.flatMap fun kind => l.map fun c => ⟨c.1 ++ "_" ++ kind.1, fun q => q.kind = kind.2, c.2⟩

/-- What a moment consists of: a list of quantities for each species in turn; only `rho` is the sum over all species. -/
def Moment.components (kinds : List String) : Moment → List Component
  | .n => perKind [("n", .number)] kinds
  | .rho => [⟨"rho", fun _ => true, .charge⟩]
  | .v => perKind [("vx", .velocity 0), ("vy", .velocity 1), ("vz", .velocity 2)] kinds
  | .p => perKind [("px", .momentum 0), ("py", .momentum 1), ("pz", .momentum 2)] kinds
  | .all => perKind [("rho", .charge), ("jx", .current 0), ("jy", .current 1), ("jz", .current 2),
      ("px", .momentum 0), ("py", .momentum 1), ("pz", .momentum 2),
      ("txx", .stress 0 0), ("tyy", .stress 1 1), ("tzz", .stress 2 2),
      ("txy", .stress 0 1), ("tyz", .stress 1 2), ("tzx", .stress 2 0)] kinds

/-- active directions -/
def Code.act : Code → Fin 3 → Bool
  | .cc1_xyz | .nc1_xyz | .nc2_xyz => xyz
  | .cc1_yz | .nc1_yz | .nc2_yz => yz

/-- ghost points a deposition needs -/
def Code.width : Code → ℤ
  | .cc1_xyz | .cc1_yz | .nc1_xyz | .nc1_yz => 1
  | .nc2_xyz | .nc2_yz => 2

/-- Share of a particle at `x` (in units of the cells) in cell or node `n`: linear weights around the cell centres or the
nodes, quadratic splines around the nodes. -/
def Code.share (C : Code) (x : R3 ℝ) (n : I3) : ℝ :=
  match C with
  | .cc1_xyz | .cc1_yz => tentRho C.act 1 (fun d => x d - 1/2) (n 0) (n 1) (n 2)
  | .nc1_xyz | .nc1_yz => tentRho C.act 1 x (n 0) (n 1) (n 2)
  | .nc2_xyz | .nc2_yz => splineRho C.act 1 x (n 0) (n 1) (n 2)

/-- Where what falls on cell or node `n` belongs: periodic wrap, or the mirror image at a reflecting wall. -/
def Grid.foldI (G : Grid) (C : Code) (n : I3) : I3 := fun d =>
  if G.c.D.bc d then n d % G.c.gdims d
  else if C.isCC then Reflecting.mirrorCC (G.c.gdims d) (G.prt_lo d == .reflecting) (G.prt_hi d == .reflecting) (n d)
  else Reflecting.mirrorNC (G.c.gdims d) (G.prt_lo d == .reflecting) (G.prt_hi d == .reflecting) (n d)

/-- the cells of the whole domain with two layers around it -/
def Grid.around (G : Grid) : Finset I3 := Reflecting.box (fun _ => -2) (fun d => G.c.gdims d + 1)

/-- Density at cell or node `x` of the whole domain: all macro-particles of the list, each with `val`, spread over the cells
around it; `fnqs` is the normalisation. -/
def density (G : Grid) (C : Code) (val : Push.Prt → ℝ) (prts : List Push.Prt) (x : I3) : ℝ :=
  (prts.map fun q => ∑ n ∈ G.around,
    if G.foldI C n = x then G.P.fnqs * val q * C.share (fun d => q.x d / G.P.dx d) n else 0).sum

/-- all particles with their positions in the whole domain -/
def Grid.global (G : Grid) (prts : ℕ → ℕ → List Push.Prt) : List Push.Prt :=
  (Bndp.allPatches G.c.D).flatMap fun rp => (prts rp.1 rp.2).map fun q =>
    { q with x := fun d => q.x d + G.c.off rp.1 rp.2 d * G.P.dx d }

/-- Decomposition and storage fit the deposition; a periodic direction has no reflecting walls. -/
structure Grid.Ok (G : Grid) (C : Code) : Prop where
  ok : G.c.Ok
  pos : ∀ d, 0 < G.c.ldims d
  inv : ∀ d, C.act d = false → G.c.ldims d = 1 ∧ G.c.D.np d = 1 ∧ G.c.ibn d = 0
  act : ∀ d, C.act d = true → C.width ≤ G.c.ibn d
  per : ∀ d, G.c.D.bc d = true → G.prt_lo d ≠ .reflecting ∧ G.prt_hi d ≠ .reflecting
  dx : ∀ d, 0 < G.P.dx d

/-- every particle lies in the patch that holds it, and its species is one of the grid's and has a charge -/
def Grid.Holds (G : Grid) (prts : ℕ → ℕ → List Push.Prt) : Prop :=
  ∀ r p, G.c.D.Has r p → ∀ q ∈ prts r p, q.kind < G.kinds.length ∧ G.P.q q.kind ≠ 0 ∧
    ∀ d, 0 ≤ q.x d ∧ q.x d < G.c.ldims d * G.P.dx d

/-- Nothing is lost at the boundaries: every direction that is not invariant is periodic or, for cell-centred moments, has two
reflecting walls. -/
def Grid.Closed (G : Grid) (C : Code) : Prop :=
  ∀ d, C.act d = true → G.c.D.bc d = true ∨ C.isCC = true ∧ G.prt_lo d = .reflecting ∧ G.prt_hi d = .reflecting

end

end Psc.Moments
