import Verif.Spec.Shock2d
import Verif.Lemmas.CellCounts

/-!
# Lemmas for the 2-d shock driver
-/

namespace Psc.Shock2d

open Domain Ddc FieldStep Fields Spec Spec.Yee Moments Pic CellInject

/-! ### One cell -/

/-- numbers of particles in a cell from the densities asked for and the random numbers used -/
noncomputable def four (F : Params) (ppud d0 d1 d2 u0 u1 u2 : ℝ) : List ℤ :=
  let a := Setup.get_n_in_cell d0 ppud true u0
  let b := Setup.get_n_in_cell d1 ppud true u1
  let c := Setup.get_n_in_cell d2 ppud true u2
  [a, b, c, Setup.toInt (-((Setup.toInt (((-(a + b) : ℤ) : ℝ) + F.Zi * (c : ℝ)) : ℤ) : ℝ) / F.Zi)]

theorem cell4 (F : Params) (ppud : ℝ) (rnd : ℕ → ℝ) (init : ℕ → Setup.Npt ℝ → Setup.Npt ℝ) (j : ℕ) :
    ∃ (s : Setup.CellState), 
      let j1 := if Setup.draws (ask init 0).n true then j + 1 else j
      let j2 := if Setup.draws (ask init 1).n true then j1 + 1 else j1
      Setup.cellLoop (setupParams F ppud) rnd (Setup.initNpt_to_initNp init) 4 0 ⟨0, j⟩ =
      some ((four F ppud (ask init 0).n (ask init 1).n (ask init 2).n (rnd j) (rnd j1) (rnd j2)).zip
        [npOf init 0, npOf init 1, npOf init 2, npOf init 3], s) := by
  set j1 := if Setup.draws (ask init 0).n true then j + 1 else j with hj1
  set j2 := if Setup.draws (ask init 1).n true then j1 + 1 else j1 with hj2
  set a := Setup.get_n_in_cell (ask init 0).n ppud true (rnd j) with ha
  set b := Setup.get_n_in_cell (ask init 1).n ppud true (rnd j1) with hb
  set c := Setup.get_n_in_cell (ask init 2).n ppud true (rnd j2) with hc
  have t1 : Setup.toInt (((0 : ℤ) : ℝ) + -1 * (a : ℝ)) = -a := by
    rw [show ((0 : ℤ) : ℝ) + -1 * (a : ℝ) = ((-a : ℤ) : ℝ) by push_cast; ring, Setup.toInt_int]
  have t2 : Setup.toInt (((-a : ℤ) : ℝ) + -1 * (b : ℝ)) = -(a + b) := by
    rw [show ((-a : ℤ) : ℝ) + -1 * (b : ℝ) = ((-(a + b) : ℤ) : ℝ) by push_cast; ring, Setup.toInt_int]
  have e0 : Setup.popStep (setupParams F ppud) rnd (Setup.initNpt_to_initNp init) 0 ⟨0, j⟩ = some (a, npOf init 0, ⟨-a, j1⟩) := by
    rw [← t1]
    simp [Setup.popStep, setupParams, charges, Setup.initNpt_to_initNp, MY_ION_TARGET, ha, hj1, npOf, ask]
    congr
  have e1 : Setup.popStep (setupParams F ppud) rnd (Setup.initNpt_to_initNp init) (0 + 1) ⟨-a, j1⟩ =
      some (b, npOf init 1, ⟨-(a + b), j2⟩) := by
    rw [← t2]
    simp [Setup.popStep, setupParams, charges, Setup.initNpt_to_initNp, MY_ION_TARGET, hb, hj2, npOf, ask]
    congr
  have e2 : Setup.popStep (setupParams F ppud) rnd (Setup.initNpt_to_initNp init) (0 + 1 + 1) ⟨-(a + b), j2⟩ =
      some (c, npOf init 2, ⟨Setup.toInt (((-(a + b) : ℤ) : ℝ) + F.Zi * (c : ℝ)), if Setup.draws (ask init 2).n true then j2 + 1 else j2⟩) := by
    simp only [Setup.popStep, setupParams, charges, Setup.initNpt_to_initNp, MY_ION_TARGET, npOf, ask]
    simp
    refine ⟨by congr, by congr, by congr⟩
  refine ⟨⟨Setup.toInt (((-(a + b) : ℤ) : ℝ) + F.Zi * (c : ℝ)), if Setup.draws (ask init 2).n true then j2 + 1 else j2⟩, ?_⟩
  have e3 : ∀ s : Setup.CellState, Setup.popStep (setupParams F ppud) rnd (Setup.initNpt_to_initNp init) (0 + 1 + 1 + 1) s =
      some (Setup.toInt (-(s.nq : ℝ) / F.Zi), npOf init 3, s) := by
    intro s
    simp [Setup.popStep, setupParams, charges, Setup.initNpt_to_initNp, MY_ION_TARGET, npOf, ask]
  simp only [Setup.cellLoop, Option.bind_eq_bind, e0, e1, e2, e3, Option.bind_some]
  rfl

/-- charge of the particles in a cell -/
noncomputable def chg (F : Params) (l : List ℤ) : ℝ :=
  F.Zi * ((l.getD 2 0).toNat + (l.getD 3 0).toNat : ℝ) - (l.getD 0 0).toNat - (l.getD 1 0).toNat

theorem cellQ_eq (F : Params) (ppud dt d0 d1 d2 u0 u1 u2 : ℝ) (init : ℕ → Setup.Npt ℝ → Setup.Npt ℝ) :
    cellQ (driver F ppud dt) ((four F ppud d0 d1 d2 u0 u1 u2).zip [npOf init 0, npOf init 1, npOf init 2, npOf init 3]) =
    chg F (four F ppud d0 d1 d2 u0 u1 u2) := by
  have hsum : ∀ a b c d : ℕ, (a : ℝ) * (1 * (charges F).getD 0 0) + ((b : ℝ) * (1 * (charges F).getD 1 0) +
      ((c : ℝ) * (1 * (charges F).getD 2 0) + ((d : ℝ) * (1 * (charges F).getD 3 0) + 0))) = F.Zi * ((c : ℝ) + (d : ℝ)) - a - b := by
    intro a b c d
    simp [charges]
    ring
  unfold chg
  rw [← hsum]
  rfl

theorem driver_ok {F : Params} (hZ : F.Zi ≠ 0) (ppud dt : ℝ) : Ok (driver F ppud dt) where
  q := by
    intro k
    show (charges F).getD k 0 ≠ 0 ↔ k < 4
    unfold charges
    match k with
    | 0 => simp
    | 1 => simp
    | 2 => simpa using hZ
    | 3 => simpa using hZ
    | k + 4 => simp
  cell := by
    intro rnd init j
    obtain ⟨s, h⟩ := cell4 F ppud rnd init j
    refine ⟨_, s, h, fun o ho => ?_⟩
    show o.2.kind < 4
    simp only [four, List.zip_cons_cons, List.zip_nil_left, List.mem_cons, List.not_mem_nil, or_false] at ho
    rcases ho with rfl | rfl | rfl | rfl <;> simp [npOf]

theorem cell_bound (F : Params) (ppud dt : ℝ) (rnd : ℕ → ℝ) (init : ℕ → Setup.Npt ℝ → Setup.Npt ℝ) (lo hi : ℝ)
    (hb : ∀ j0 j1 j2, lo ≤ chg F (four F ppud (ask init 0).n (ask init 1).n (ask init 2).n (rnd j0) (rnd j1) (rnd j2)) ∧
      chg F (four F ppud (ask init 0).n (ask init 1).n (ask init 2).n (rnd j0) (rnd j1) (rnd j2)) ≤ hi) :
    CellBound (driver F ppud dt) rnd init lo hi := by
  intro j l s h
  obtain ⟨s', h'⟩ := cell4 F ppud rnd init j
  have e : some (l, s) = some _ := h.symm.trans h'
  obtain ⟨rfl, -⟩ := Prod.mk.inj (Option.some.inj e)
  rw [cellQ_eq]
  exact hb _ _ _

/-- with ions of charge 1: the charge of a cell is what the ambient ions are too many -/
theorem chg_one {F : Params} (hZ : F.Zi = 1) {ppud d0 d1 d2 u0 u1 u2 : ℝ} (hp : 0 ≤ ppud) (h0 : 0 ≤ d0) (h1 : 0 ≤ d1) (h2 : 0 ≤ d2)
    (hu0 : 0 ≤ u0) (hu1 : 0 ≤ u1) (hu2 : 0 ≤ u2) :
    chg F (four F ppud d0 d1 d2 u0 u1 u2) = max 0 ((Setup.get_n_in_cell d2 ppud true u2 - Setup.get_n_in_cell d0 ppud true u0 -
      Setup.get_n_in_cell d1 ppud true u1 : ℤ) : ℝ) := by
  have ha := Setup.get_n_nonneg d0 ppud u0 true h0 hp hu0
  have hb := Setup.get_n_nonneg d1 ppud u1 true h1 hp hu1
  have hc := Setup.get_n_nonneg d2 ppud u2 true h2 hp hu2
  unfold four
  simp only
  generalize Setup.get_n_in_cell d0 ppud true u0 = a at ha
  generalize Setup.get_n_in_cell d1 ppud true u1 = b at hb
  generalize Setup.get_n_in_cell d2 ppud true u2 = c at hc
  have e1 : Setup.toInt (((-(a + b) : ℤ) : ℝ) + F.Zi * (c : ℝ)) = c - a - b := by
    rw [hZ, show ((-(a + b) : ℤ) : ℝ) + 1 * (c : ℝ) = ((c - a - b : ℤ) : ℝ) by push_cast; ring, Setup.toInt_int]
  have e2 : Setup.toInt (-((c - a - b : ℤ) : ℝ) / F.Zi) = a + b - c := by
    rw [hZ, div_one, show -((c - a - b : ℤ) : ℝ) = ((a + b - c : ℤ) : ℝ) by push_cast; ring, Setup.toInt_int]
  rw [e1, e2]
  simp only [chg, hZ, one_mul, List.getD_cons_zero, List.getD_cons_succ]
  have k : ((c.toNat : ℤ) + ((a + b - c).toNat : ℤ) - (a.toNat : ℤ) - (b.toNat : ℤ)) = max 0 (c - a - b) := by omega
  have hcast : ∀ n : ℕ, (n : ℝ) = ((n : ℤ) : ℝ) := fun n => (Int.cast_natCast n).symm
  rw [hcast c.toNat, hcast (a + b - c).toNat, hcast a.toNat, hcast b.toNat, ← Int.cast_add, ← Int.cast_sub, ← Int.cast_sub, k]
  push_cast
  rfl

/-! ### Densities -/

theorem inject_fac_nonneg {F : Params} (hs : F.Sound) (hi : 0 < F.inject_interval) {dt : ℝ} (hdt : 0 < dt) : 0 ≤ inject_fac F dt := by
  have h1 : (0 : ℝ) < F.inject_interval := by exact_mod_cast hi
  have h2 : 0 < F.inject_interval * dt / F.inject_tau := div_pos (mul_pos h1 hdt) hs.tau
  unfold inject_fac
  exact div_nonneg h2.le (by linarith)

theorem inject_ask (F : Params) (dt : ℝ) (h : ℕ → ℝ) {pos : R3 ℝ} (hin : is_inside F pos) :
    (ask (inject_npt F dt h pos) 0).n = max 0 (F.target_n - (h 0 + h 1)) * inject_fac F dt * inject_fac F dt ∧
    (ask (inject_npt F dt h pos) 1).n = 0 ∧ (ask (inject_npt F dt h pos) 2).n = 0 := by
  refine ⟨?_, ?_, ?_⟩
  · have : max 0 (F.target_n - (h 0 + h 1)) = if F.target_n - h 0 - h 1 < 0 then 0 else F.target_n - h 0 - h 1 := by
      split_ifs with hx
      · exact max_eq_left (by linarith)
      · rw [max_eq_right (by linarith)]; ring
    rw [this]
    simp [ask, inject_npt, hin, MY_ELECTRON_TARGET, MY_ELECTRON_AMBIENT]
  · simp [ask, inject_npt, hin, MY_ELECTRON_TARGET]
  · simp [ask, inject_npt, hin, MY_ELECTRON_TARGET]

theorem outside_ask (F : Params) (dt : ℝ) (h : ℕ → ℝ) {pos : R3 ℝ} (hin : ¬ is_inside F pos) (k : ℕ) : (ask (inject_npt F dt h pos) k).n = 0 := by
  simp [ask, inject_npt, hin]

theorem initial_ask (F : Params) (pos : R3 ℝ) :
    (ask (initial_npt F pos) 0).n = (if is_inside F pos then F.target_n else 0) ∧ (ask (initial_npt F pos) 1).n = F.background_n ∧
    (ask (initial_npt F pos) 2).n = F.background_n := by
  by_cases h : is_inside F pos <;> simp [ask, initial_npt, init_npt, h, MY_ELECTRON_TARGET, MY_ION_TARGET]

theorem get_n_zero (ppud u : ℝ) : Setup.get_n_in_cell (0 : ℝ) ppud true u = 0 := by simp [Setup.get_n_in_cell]

/-- an integer number asked for is made -/
theorem get_n_int {d ppud u : ℝ} {m : ℤ} (hm : d * ppud = m) (h0 : 0 ≤ m) (hu : 0 ≤ u ∧ u < 1) : Setup.get_n_in_cell d ppud true u = m := by
  unfold Setup.get_n_in_cell
  split_ifs with h
  · rw [h, zero_mul] at hm
    exact_mod_cast hm
  · have : (0 : ℝ) ≤ m := by exact_mod_cast h0
    rw [toInt_nonneg (by rw [hm]; linarith [hu.1]), hm]
    rw [Int.floor_eq_iff]
    constructor <;> linarith [hu.1, hu.2]
  · simp at *

theorem driver_neutral {F : Params} (hZ : F.Zi = 1) (hs : F.Sound) {ppud : ℝ} (hp : 0 ≤ ppud) {dt : ℝ} (hdt : 0 < dt) : Neutral (driver F ppud dt) := by
  intro hi rnd hr h pos
  refine cell_bound F ppud dt rnd _ 0 0 fun j0 j1 j2 => ?_
  have hf := inject_fac_nonneg hs hi hdt
  have key : 0 ≤ (ask ((driver F ppud dt).inject h pos) 0).n ∧ (ask ((driver F ppud dt).inject h pos) 1).n = 0 ∧
      (ask ((driver F ppud dt).inject h pos) 2).n = 0 := by
    by_cases hin : is_inside F pos
    · obtain ⟨e0, e1, e2⟩ := inject_ask F dt h hin
      exact ⟨by rw [show (driver F ppud dt).inject h pos = inject_npt F dt h pos from rfl, e0]
                exact mul_nonneg (mul_nonneg (le_max_left _ _) hf) hf, e1, e2⟩
    · exact ⟨(outside_ask F dt h hin 0).ge, outside_ask F dt h hin 1, outside_ask F dt h hin 2⟩
  obtain ⟨k0, k1, k2⟩ := key
  rw [chg_one hZ hp k0 (by rw [k1]) (by rw [k2]) (hr _) (hr _) (hr _), k2, get_n_zero]
  have ha := Setup.get_n_nonneg _ ppud (rnd j0) true k0 hp (hr _)
  have hb := Setup.get_n_nonneg _ ppud (rnd j1) true k1.ge hp (hr _)
  have : (((0 : ℤ) - Setup.get_n_in_cell (ask ((driver F ppud dt).inject h pos) 0).n ppud true (rnd j0) -
      Setup.get_n_in_cell (ask ((driver F ppud dt).inject h pos) 1).n ppud true (rnd j1) : ℤ) : ℝ) ≤ 0 := by
    exact_mod_cast (by omega)
  rw [max_eq_left this]
  exact ⟨le_refl _, le_refl _⟩

theorem initial_neutral {F : Params} (hZ : F.Zi = 1) (hs : F.Sound) {ppud : ℝ} (hp : 0 ≤ ppud) {m : ℤ} (hm : F.background_n * ppud = m) (dt : ℝ)
    {rnd : ℕ → ℝ} (hr : ∀ j, 0 ≤ rnd j ∧ rnd j < 1) (pos : R3 ℝ) :
    CellBound (driver F ppud dt) rnd ((driver F ppud dt).initial pos) 0 0 := by
  refine cell_bound F ppud dt rnd _ 0 0 fun j0 j1 j2 => ?_
  rw [show (driver F ppud dt).initial pos = initial_npt F pos from rfl]
  obtain ⟨e0, e1, e2⟩ := initial_ask F pos
  have k0 : 0 ≤ (ask (initial_npt F pos) 0).n := by
    rw [e0]
    split_ifs
    · exact hs.target
    · exact le_refl _
  have hm0 : 0 ≤ m := by
    have := mul_nonneg hs.background hp
    rw [hm] at this
    exact_mod_cast this
  rw [chg_one hZ hp k0 (by rw [e1]; exact hs.background) (by rw [e2]; exact hs.background) (hr _).1 (hr _).1 (hr _).1, e1, e2,
    get_n_int hm hm0 (hr j1), get_n_int hm hm0 (hr j2)]
  have ha := Setup.get_n_nonneg _ ppud (rnd j0) true k0 hp (hr _).1
  have : ((m - Setup.get_n_in_cell (ask (initial_npt F pos) 0).n ppud true (rnd j0) - m : ℤ) : ℝ) ≤ 0 := by
    exact_mod_cast (by omega)
  rw [max_eq_left this]
  exact ⟨le_refl _, le_refl _⟩

theorem field_E (F : Params) (ppud dt : ℝ) (e : Fin 3) (x : R3 ℝ) : (driver F ppud dt).field (EX + e) x = 0 := by
  show (if EX + e = HX + 1 then F.BB_perp else if EX + e = HX + 2 then F.BB_par else 0) = 0
  rw [if_neg (by unfold EX HX; omega), if_neg (by unfold EX HX; omega)]

theorem counts_eq (F : Params) (ppud : ℝ) (rnd : ℕ → ℝ) (init : ℕ → Setup.Npt ℝ → Setup.Npt ℝ) (j : ℕ) :
    ∃ j1 j2 : ℕ, counts F ppud rnd init j = some (four F ppud (ask init 0).n (ask init 1).n (ask init 2).n (rnd j) (rnd j1) (rnd j2)) := by
  obtain ⟨s, h⟩ := cell4 F ppud rnd init j
  dsimp only at h
  set j1 := if Setup.draws (ask init 0).n true then j + 1 else j
  set j2 := if Setup.draws (ask init 1).n true then j1 + 1 else j1
  refine ⟨j1, j2, ?_⟩
  unfold counts
  rw [h]
  rfl

theorem four_one {F : Params} (hZ : F.Zi = 1) {ppud d0 d1 d2 u0 u1 u2 : ℝ} :
    four F ppud d0 d1 d2 u0 u1 u2 = [Setup.get_n_in_cell d0 ppud true u0, Setup.get_n_in_cell d1 ppud true u1, Setup.get_n_in_cell d2 ppud true u2,
      Setup.get_n_in_cell d0 ppud true u0 + Setup.get_n_in_cell d1 ppud true u1 - Setup.get_n_in_cell d2 ppud true u2] := by
  unfold four
  simp only
  generalize Setup.get_n_in_cell d0 ppud true u0 = a
  generalize Setup.get_n_in_cell d1 ppud true u1 = b
  generalize Setup.get_n_in_cell d2 ppud true u2 = c
  have e1 : Setup.toInt (((-(a + b) : ℤ) : ℝ) + F.Zi * (c : ℝ)) = c - a - b := by
    rw [hZ, show ((-(a + b) : ℤ) : ℝ) + 1 * (c : ℝ) = ((c - a - b : ℤ) : ℝ) by push_cast; ring, Setup.toInt_int]
  have e2 : Setup.toInt (-((c - a - b : ℤ) : ℝ) / F.Zi) = a + b - c := by
    rw [hZ, div_one, show -((c - a - b : ℤ) : ℝ) = ((a + b - c : ℤ) : ℝ) by push_cast; ring, Setup.toInt_int]
  rw [e1, e2]

/-- the charge of a patch is at least that of its first cell if no cell has negative charge -/
theorem patch_first {S : Pic.Setup} (hdx : ∀ d, 0 < S.P.dx d) (hl : ∀ d, 0 < S.c.ldims d) {D : Driver} (hD : Ok D) (hk : CellInject.Kinds S D)
    (corner : R3 ℝ) (init : I3 → ℕ → Setup.Npt ℝ → Setup.Npt ℝ) (R : InitDensity.Random) (r p : ℕ) (q0 : ℝ)
    (hb : ∀ n, CellInject.CellBound D R.rnd (init n) 0 1)
    (h0 : ∀ n l s, Setup.cellLoop D.prm R.rnd (Setup.initNpt_to_initNp (init n)) D.prm.n_populations 0 ⟨0, 0⟩ = some (l, s) → q0 ≤ cellQ D l) :
    ∃ l, setupPatch S D corner init R r p = some l ∧ q0 ≤ charge l := by
  obtain ⟨l, e, h1, calls, hc, h2⟩ := setupPatch_core hdx hl hD hk corner init R r p
  refine ⟨l, e, ?_⟩
  have hq := h2 fun _ => 1
  simp only [mul_one] at hq
  unfold charge
  rw [hq]
  clear hq h2 h1 e
  have hne : InitDensity.cells S.c.ldims ≠ [] :=
    List.ne_nil_of_mem ((InitDensity.mem_cells _ (fun _ => 0)).2 fun d => ⟨le_refl _, hl d⟩)
  obtain ⟨n, cs, ecs⟩ := List.exists_cons_of_ne_nil hne
  rw [ecs] at hc
  obtain ⟨l1, s, h, -⟩ := hD.cell R.rnd (init n) 0
  obtain ⟨calls', hc', -, -, h4⟩ := calls_spec hD R.rnd init (InitDensity.posOf (DeckRun.gridOf S D.kinds) (deckOf corner) r p) cs s.pos
  simp only [Offsets.callsOf, Option.bind_eq_bind] at hc
  rw [h] at hc
  simp only [Option.bind_some] at hc
  rw [hc'] at hc
  simp only [Option.bind_some, Option.some.injEq] at hc
  subst hc
  have h5 := (h4 0 1 fun n _ => hb n).1
  rw [mul_zero] at h5
  rw [List.map_append, List.sum_append, List.map_map]
  have : (l1.map ((fun c : Offsets.Call ℝ => (c.n_in_cell.toNat : ℝ) * (c.weight * D.prm.q.getD c.kind 0)) ∘
      fun o => ⟨o.1, o.2.kind, Setup.getWeight D.prm o.2.n o.1, InitDensity.posOf (DeckRun.gridOf S D.kinds) (deckOf corner) r p n⟩)).sum = cellQ D l1 := rfl
  rw [this]
  linarith [h0 n l1 s h]

/-! ### Whole patches -/

theorem is_inside_box (F : Params) (x : R3 ℝ) : is_inside F x = InBox F.lo F.hi x := rfl

theorem at_cell (S : Pic.Setup) (D : Driver) (corner : R3 ℝ) (r p : ℕ) (n : I3) :
    CellInject.posOf S D corner r p n = fun d => corner d + S.c.off r p d * S.P.dx d + spot S n d := by
  funext d
  rw [pos_spot]
  show S.c.off r p d * S.P.dx d + corner d + _ = _
  ring

/-- numbers of particles of each kind in a cell -/
theorem num4 {S : Pic.Setup} (hF : Fit S 2) {F : Params} (hk : Kinds S F) (hZ : F.Zi ≠ 0) (ppud dt : ℝ) (corner : R3 ℝ)
    (init : I3 → ℕ → Setup.Npt ℝ → Setup.Npt ℝ) (R : InitDensity.Random) (r p : ℕ) {l : List Push.Prt}
    (h : setupPatch S (driver F ppud dt) corner init R r p = some l) {n : I3} (hn : Interior S.c n) :
    ∃ j a b c d, counts F ppud R.rnd (init n) j = some [a, b, c, d] ∧ numAt l 0 (spot S n) = a.toNat ∧ numAt l 1 (spot S n) = b.toNat ∧
      numAt l 2 (spot S n) = c.toNat ∧ numAt l 3 (spot S n) = d.toNat ∧ ∀ k, 4 ≤ k → numAt l k (spot S n) = 0 := by
  obtain ⟨j, L, s, e, hl⟩ := (placed hF.dx hF.pos (driver_ok hZ ppud dt) hk rfl corner init R r p h).2 n ((InitDensity.mem_cells _ _).2 hn)
  obtain ⟨s', e'⟩ := cell4 F ppud R.rnd (init n) j
  dsimp only at e'
  have hL := congrArg Prod.fst (Option.some.inj (e.symm.trans e'))
  dsimp only at hL
  subst hL
  refine ⟨j, _, _, _, _, by unfold counts; rw [e']; rfl, ?_, ?_, ?_, ?_, fun k hk3 => ?_⟩
  · rw [hl]; simp [npOf, four]
  · rw [hl]; simp [npOf, four]
  · rw [hl]; simp [npOf, four]
  · rw [hl]; simp [npOf, four]
  · rw [hl]
    have h0 : (0 : ℕ) ≠ k := by omega
    have h1 : (1 : ℕ) ≠ k := by omega
    have h2 : (2 : ℕ) ≠ k := by omega
    have h3 : (3 : ℕ) ≠ k := by omega
    simp [npOf, four, h0, h1, h2, h3]

end Psc.Shock2d
