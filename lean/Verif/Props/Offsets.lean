import Verif.Lemmas.Offsets
import Mathlib.Data.Rat.Floor

/-!
# C84: random initial positions

With random offsets every particle lies in the cell it was asked for, two kinds asked for in the same cells get the same
positions, and the positions on different processes should have nothing to do with each other.
-/

namespace Psc.Props

open Offsets

variable {K : Type} [Field K] [LinearOrder K] [IsStrictOrderedRing K] [FloorRing K]

/-- a box with cells of size 2 in y and 1 in z, positions from cell centres, numbers made from one call of the engine -/
def exOffG : Geo ℚ where
  dx d := if d = 1 then 2 else 1
  inv d := d = 0
  cc := true
  m := 1

/-- ions and electrons in two cells -/
def exOffCalls : List (Call ℚ) :=
  [⟨2, 0, 1, fun _ => 1 / 2⟩, ⟨2, 1, 1, fun _ => 1 / 2⟩, ⟨1, 0, 2, fun d => if d = 1 then 5 / 2 else 1 / 2⟩,
    ⟨1, 1, 2, fun d => if d = 1 then 5 / 2 else 1 / 2⟩]

/-- **C84** (cells).  Whatever is asked for on whatever process: the particles are those asked for, in order, and each lies in
its cell, or exactly at the position of the cell in a direction in which nothing varies. -/
theorem C84_cells (g : Geo K) (hdx : ∀ d, 0 < g.dx d) (rank : ℕ) (calls : List (Call K)) (l : List (Placed K))
    (hl : setup g rank calls = some l) :
    l.map (fun p => (p.kind, p.weight, p.cell)) =
        calls.flatMap (fun c => List.replicate c.n_in_cell.toNat (c.kind, c.weight, c.pos)) ∧
      ∀ p ∈ l, ∀ d,
        (g.inv d = true → p.pos d = p.cell d) ∧
        (g.inv d = false → g.cc = true → p.cell d - g.dx d / 2 ≤ p.pos d ∧ p.pos d < p.cell d + g.dx d / 2) ∧
        (g.inv d = false → g.cc = false → p.cell d ≤ p.pos d ∧ p.pos d < p.cell d + g.dx d) := by
  obtain ⟨s, -, rfl⟩ := setup_some hl
  refine ⟨run_cells g calls _, fun p hp d => ?_⟩
  have h := run_spec g calls _ (fun _ => seeded_live s) p hp d
  unfold InCell at h
  refine ⟨fun hi => by rwa [if_pos hi] at h, fun hi hc => ?_, fun hi hc => ?_⟩
  all_goals
    rw [if_neg (by rw [hi]; decide)] at h
    obtain ⟨u, h1, h2, h3⟩ := h
    have hd := hdx d
  · have e1 : lo g = -(1 / 2) := by simp [lo, hc]
    have e2 : Offsets.hi g = 1 / 2 := by simp [Offsets.hi, hc]
    rw [e1] at h1
    rw [e2] at h2
    constructor <;> nlinarith
  · have e1 : lo g = 0 := by simp [lo, hc]
    have e2 : Offsets.hi g = 1 := by simp [Offsets.hi, hc]
    rw [e1] at h1
    rw [e2] at h2
    constructor <;> nlinarith

example : ∃ l, setup exOffG 3 exOffCalls = some l ∧ l.length = 6 ∧ (∀ p ∈ l, p.pos 0 = 1 / 2) ∧ ∀ p ∈ l, p.pos 1 ≠ p.cell 1 := by
  have h : (setup exOffG 3 exOffCalls).any
      (fun l => l.length = 6 ∧ (∀ p ∈ l, p.pos 0 = 1 / 2) ∧ ∀ p ∈ l, p.pos 1 ≠ p.cell 1) = true := by decide +kernel
  generalize setup exOffG 3 exOffCalls = o at h
  cases o with
  | none => cases h
  | some l => exact ⟨l, rfl, of_decide_eq_true h⟩

/-- **C84** (kinds).  If two kinds are asked for in the same cells with the same weights, however the particles are spread over
populations, the two kinds are at exactly the same positions. -/
theorem C84_same (g : Geo K) (rank : ℕ) (calls : List (Call K)) (l : List (Placed K)) (hl : setup g rank calls = some l)
    (a b : ℕ) (hab : asked calls a = asked calls b) : positions l a = positions l b := by
  obtain ⟨s, -, rfl⟩ := setup_some hl
  have ea := run_kind g a calls fun _ => seeded s
  have eb := run_kind g b calls fun _ => seeded s
  generalize seeded s = x at *
  rw [hab] at ea
  exact ea.trans eb.symm

example : asked exOffCalls 0 = asked exOffCalls 1 ∧ (asked exOffCalls 0).length = 3 := ⟨rfl, rfl⟩

/-- **C84** (charge).  Two kinds of opposite charge that the deck gives the same density in every cell: the particles of every
process give no charge to any grid point, whatever their shape. -/
theorem C84_neutral {C : Type} (P : Setup.Params K) (e : K) (hq : P.q = [e, -e]) (hpop : P.n_populations = 2)
    (hneut : P.neutralizing_population < 0) (hf : P.fractional = false) (rnd : ℕ → K)
    (init_np : C → ℕ → Setup.Np K → Setup.Np K) (hkind : ∀ c pop np, (init_np c pop np).kind = np.kind)
    (hn : ∀ c np np', (init_np c 0 np).n = (init_np c 1 np').n) (posOf : C → Fin 3 → K) (cells : List C) (i : ℕ)
    (calls : List (Call K)) (hc : callsOf P rnd init_np posOf cells i = some calls)
    (g : Geo K) (rank : ℕ) (l : List (Placed K)) (hl : setup g rank calls = some l) (S : (Fin 3 → K) → K) :
    charge (fun k => P.q.getD k 0) S l = 0 := by
  obtain ⟨h1, h2⟩ := callsOf_two P e hq hpop hneut hf rnd init_np hkind hn posOf cells i calls hc
  have hsame := C84_same g rank calls l hl 0 1 h1
  have hk : ∀ p ∈ l, p.kind = 0 ∨ p.kind = 1 := by
    obtain ⟨s, -, rfl⟩ := setup_some hl
    intro p hp
    obtain ⟨c, hc, e⟩ := run_kinds g calls _ p hp
    rw [e]
    exact h2 c hc
  rw [charge_kinds _ _ l hk, hsame, hq]
  simp

/-- a deck: density `c / 2 + 1` in cell `c`, four particles per unit density -/
def exOffP : Setup.Params ℚ := { q := [1, -1], prts_per_unit_density := 4, n_populations := 2 }

/-- see `exOffP` -/
def exOffInit (c : ℕ) (_ : ℕ) (np : Setup.Np ℚ) : Setup.Np ℚ := { np with n := c / 2 + 1 }

example : ∃ calls l, callsOf exOffP (fun _ => 0) exOffInit (fun c d => if d = 1 then 2 * c + 1 else 1 / 2) [0, 1, 2] 0 = some calls ∧
    setup exOffG 3 calls = some l ∧ l.length = 36 ∧ (∀ c pop np, (exOffInit c pop np).kind = np.kind) ∧
    ∀ c np np', (exOffInit c 0 np).n = (exOffInit c 1 np').n := by
  refine ⟨_, _, rfl, rfl, ?_, fun _ _ _ => rfl, fun _ _ _ => rfl⟩
  decide +kernel

/-- **C84** (streams).  No two processes ever get the same random number at the same step. -/
theorem C84_streams (r r' s s' : ℕ) (hr : get_process_seed r = some s) (hr' : get_process_seed r' = some s') (hne : r ≠ r') (n : ℕ) :
    next^[n] (seeded s) ≠ next^[n] (seeded s') := by
  intro h
  have := iter_inj (seeded_live s).2 (seeded_live s').2 h
  rw [seeded_eq hr, seeded_eq hr'] at this
  omega

example : get_process_seed 0 = some 10000 ∧ get_process_seed 5 = some 60000 ∧ get_process_seed 214748 = none := by decide

/-- **C84** is violated (processes).  The positions on different processes are not independent.  If two processes are asked for the
same numbers of particles, as in a uniform plasma, then the place in its cell of every particle of process `rank` is `rank + 1`
times the place of the corresponding particle of process 0, up to whole cells and up to one part in `10⁹ / rank`. -/
theorem C84_ranks_violation (g : Geo K) (hm : g.m = 1 ∨ g.m = 2) (hdx : ∀ d, g.dx d ≠ 0) (rank : ℕ) (calls calls' : List (Call K))
    (hcalls : SameNumbers calls calls') (l l' : List (Placed K)) (hl : setup g 0 calls = some l)
    (hl' : setup g rank calls' = some l') :
    List.Forall₂ (fun p p' => p.kind = p'.kind ∧ ∀ d, g.inv d = false →
      ∃ k : ℤ, |frac g p' d - (rank + 1) * frac g p d + k| ≤ g.m * rank / 2147483646) l l' := by
  obtain ⟨s0, h0, rfl⟩ := setup_some hl
  obtain ⟨s, h, rfl⟩ := setup_some hl'
  refine (run_rel g hm hdx (Nat.succ_pos rank) hcalls fun _ => seeds_times h h0).imp ?_
  rintro p p' ⟨h1, h2⟩
  refine ⟨h1, fun d hd => ?_⟩
  obtain ⟨k, hk⟩ := h2 d hd
  refine ⟨k, ?_⟩
  have e : ∀ p : Placed K, frac g p d = (p.pos d - p.cell d) / g.dx d - lo g := by
    intro p
    unfold frac
    rw [← lo_eq]
    ring
  rw [e, e]
  have hM : (M : K) - 1 = 2147483646 := by unfold M; norm_num
  rw [hM] at hk
  push_cast at hk
  rw [add_sub_cancel_right] at hk
  exact hk

example : SameNumbers exOffCalls (exOffCalls.map fun c => { c with pos := fun d => c.pos d + 100 }) ∧
    (∃ l, setup exOffG 0 exOffCalls = some l) ∧ ∃ l', setup exOffG 1 (exOffCalls.map fun c => { c with pos := fun d => c.pos d + 100 }) = some l' := by
  refine ⟨?_, ⟨_, rfl⟩, ⟨_, rfl⟩⟩
  unfold SameNumbers exOffCalls
  refine .cons ⟨rfl, rfl⟩ (.cons ⟨rfl, rfl⟩ (.cons ⟨rfl, rfl⟩ (.cons ⟨rfl, rfl⟩ .nil)))

/-- **C84** is violated (neutral cells).  The engines of two kinds get out of step at the first cell with unequal numbers: cells
after it that are asked for equally many ions and electrons of equal weight are not neutral any more at the grid points. -/
theorem C84_neutral_violation : ∃ (calls : List (Call ℚ)) (c : Fin 3 → ℚ) (l : List (Placed ℚ)) (S : (Fin 3 → ℚ) → ℚ),
    setup exOffG 0 calls = some l ∧
    asked (calls.filter fun x => x.pos 1 = c 1) 0 = asked (calls.filter fun x => x.pos 1 = c 1) 1 ∧
    charge (fun k => if k = 0 then 1 else -1) S (l.filter fun p => p.cell 1 = c 1) ≠ 0 := by
  refine ⟨⟨1, 1, 1, fun _ => 1 / 2⟩ :: exOffCalls, fun _ => 5 / 2, _, fun x => x 1, rfl, ?_, ?_⟩
  · norm_num [asked, exOffCalls]
  · decide +kernel

end Psc.Props
