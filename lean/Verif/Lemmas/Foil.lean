import Verif.Spec.Foil
import Verif.Lemmas.CellCounts

/-!
# Lemmas for the flat foil driver
-/

namespace Psc.Foil

open Domain Ddc FieldStep Fields Spec Spec.Yee Moments Pic CellInject

/-! ### One cell -/

theorem cell3 (F : Params) (ppud : ℝ) (rnd : ℕ → ℝ) (init : ℕ → Setup.Npt ℝ → Setup.Npt ℝ) (j : ℕ) :
    ∃ (j0 j1 : ℕ) (s : Setup.CellState), Setup.cellLoop (setupParams F ppud) rnd (Setup.initNpt_to_initNp init) 3 0 ⟨0, j⟩ =
      some ([(Setup.get_n_in_cell (ask init 0).n ppud true (rnd j0), npOf init 0),
        (Setup.get_n_in_cell (ask init 1).n ppud true (rnd j1), npOf init 1),
        (Setup.toInt (((Setup.get_n_in_cell (ask init 0).n ppud true (rnd j0) + Setup.get_n_in_cell (ask init 1).n ppud true (rnd j1) : ℤ) : ℝ) / F.Zi),
          npOf init 2)], s) := by
  set a := Setup.get_n_in_cell (ask init 0).n ppud true (rnd j) with ha
  set j1 := if Setup.draws (ask init 0).n true then j + 1 else j with hj1
  set b := Setup.get_n_in_cell (ask init 1).n ppud true (rnd j1) with hb
  have t1 : Setup.toInt (((0 : ℤ) : ℝ) + -1 * (a : ℝ)) = -a := by
    rw [show ((0 : ℤ) : ℝ) + -1 * (a : ℝ) = ((-a : ℤ) : ℝ) by push_cast; ring, Setup.toInt_int]
  have t2 : Setup.toInt (((-a : ℤ) : ℝ) + -1 * (b : ℝ)) = -(a + b) := by
    rw [show ((-a : ℤ) : ℝ) + -1 * (b : ℝ) = ((-(a + b) : ℤ) : ℝ) by push_cast; ring, Setup.toInt_int]
  have e0 : Setup.popStep (setupParams F ppud) rnd (Setup.initNpt_to_initNp init) 0 ⟨0, j⟩ = some (a, npOf init 0, ⟨-a, j1⟩) := by
    rw [← t1]
    simp [Setup.popStep, setupParams, charges, Setup.initNpt_to_initNp, MY_ION, ha, hj1, npOf, ask]
    congr
  have e1 : Setup.popStep (setupParams F ppud) rnd (Setup.initNpt_to_initNp init) (0 + 1) ⟨-a, j1⟩ =
      some (b, npOf init 1, ⟨-(a + b), if Setup.draws (ask init 1).n true then j1 + 1 else j1⟩) := by
    rw [← t2]
    simp [Setup.popStep, setupParams, charges, Setup.initNpt_to_initNp, MY_ION, hb, npOf, ask]
    congr
  refine ⟨j, j1, ⟨-(a + b), if Setup.draws (ask init 1).n true then j1 + 1 else j1⟩, ?_⟩
  have e2 : Setup.popStep (setupParams F ppud) rnd (Setup.initNpt_to_initNp init) (0 + 1 + 1)
      ⟨-(a + b), if Setup.draws (ask init 1).n true then j1 + 1 else j1⟩ =
      some (Setup.toInt (((a + b : ℤ) : ℝ) / F.Zi), npOf init 2, ⟨-(a + b), if Setup.draws (ask init 1).n true then j1 + 1 else j1⟩) := by
    have : -(((-(a + b) : ℤ) : ℝ)) = ((a + b : ℤ) : ℝ) := by push_cast; ring
    simp only [Setup.popStep]
    rw [this]
    simp [setupParams, charges, Setup.initNpt_to_initNp, MY_ION, npOf, ask]
  simp only [Setup.cellLoop, Option.bind_eq_bind, e0, e1, e2, Option.bind_some]
  rfl

theorem inject_fac_nonneg {F : Params} (hs : F.Sound) (hi : 0 < F.inject_interval) {dt : ℝ} (hdt : 0 < dt) : 0 ≤ inject_fac F dt := by
  have h1 : (0 : ℝ) < F.inject_interval := by exact_mod_cast hi
  have h2 : 0 < F.inject_interval * dt / F.inject_tau := div_pos (mul_pos h1 hdt) hs.tau
  unfold inject_fac
  exact div_nonneg h2.le (by linarith)

theorem inject_nonneg {F : Params} (hs : F.Sound) (hi : 0 < F.inject_interval) {dt : ℝ} (hdt : 0 < dt) (h : ℕ → ℝ) (pos : R3 ℝ) (k : ℕ) :
    0 ≤ (ask (inject_npt F dt h pos) k).n := by
  have hf := inject_fac_nonneg hs hi hdt
  have hpos : ∀ x : ℝ, 0 ≤ (if x < 0 then 0 else x) * inject_fac F dt := by
    intro x
    split_ifs
    · simp
    · exact mul_nonneg (by linarith) hf
  unfold ask inject_npt
  by_cases h1 : is_inside F pos
  · rw [if_pos h1]; exact hpos _
  · rw [if_neg h1]

theorem initial_nonneg {F : Params} (hs : F.Sound) (pos : R3 ℝ) (k : ℕ) : 0 ≤ (ask (initial_npt F pos) k).n := by
  unfold ask initial_npt init_npt
  have h1 := hs.target
  have h2 := hs.background
  obtain ⟨h3, h4⟩ := hs.ratio
  have h5 := mul_nonneg h3 h1
  have h6 := mul_nonneg (sub_nonneg.2 h4) h1
  simp only
  split_ifs <;> simp_all

theorem counts_eq (F : Params) (ppud : ℝ) (rnd : ℕ → ℝ) (init : ℕ → Setup.Npt ℝ → Setup.Npt ℝ) (j : ℕ) :
    ∃ j0 j1, counts F ppud rnd init j = some [Setup.get_n_in_cell (ask init 0).n ppud true (rnd j0),
      Setup.get_n_in_cell (ask init 1).n ppud true (rnd j1),
      Setup.toInt (((Setup.get_n_in_cell (ask init 0).n ppud true (rnd j0) + Setup.get_n_in_cell (ask init 1).n ppud true (rnd j1) : ℤ) : ℝ) / F.Zi)] := by
  obtain ⟨j0, j1, s, h⟩ := cell3 F ppud rnd init j
  exact ⟨j0, j1, by unfold counts; rw [h]; rfl⟩

theorem inject_ask {F : Params} (hs : F.Sound) {dt : ℝ} {h : ℕ → ℝ} {pos : R3 ℝ} (hin : is_inside F pos) :
    (ask (inject_npt F dt h pos) 0).n = max 0 (F.target_n - (h 1 + h 0)) * F.electron_HE_ratio * inject_fac F dt ∧
    (ask (inject_npt F dt h pos) 1).n = max 0 (F.target_n - (h 1 + h 0)) * (1 - F.electron_HE_ratio) * inject_fac F dt := by
  have key : ∀ x r : ℝ, 0 ≤ r → (if x * r < 0 then 0 else x * r) = max 0 x * r := by
    intro x r hr
    rcases le_total 0 x with hx | hx
    · rw [max_eq_right hx, if_neg (not_lt.2 (mul_nonneg hx hr))]
    · rw [max_eq_left hx, zero_mul]
      split_ifs with h
      · rfl
      · exact le_antisymm (mul_nonpos_of_nonpos_of_nonneg hx hr) (not_lt.1 h)
  constructor
  · rw [← key _ _ hs.ratio.1]
    simp [ask, inject_npt, hin, MY_ELECTRON, MY_ELECTRON_HE]
  · rw [← key _ _ (sub_nonneg.2 hs.ratio.2)]
    simp [ask, inject_npt, hin, MY_ELECTRON, MY_ELECTRON_HE]

/-- charge made in a cell -/
noncomputable def chg (F : Params) (ppud d0 d1 u0 u1 : ℝ) : ℝ :=
  F.Zi * ((Setup.toInt (((Setup.get_n_in_cell d0 ppud true u0 + Setup.get_n_in_cell d1 ppud true u1 : ℤ) : ℝ) / F.Zi)).toNat : ℝ) -
    ((Setup.get_n_in_cell d0 ppud true u0).toNat : ℝ) - ((Setup.get_n_in_cell d1 ppud true u1).toNat : ℝ)

theorem chg_bound {F : Params} (hZ : 0 < F.Zi) {ppud d0 d1 u0 u1 : ℝ} (hp : 0 ≤ ppud) (h0 : 0 ≤ d0) (h1 : 0 ≤ d1) (hu0 : 0 ≤ u0) (hu1 : 0 ≤ u1) :
    -F.Zi < chg F ppud d0 d1 u0 u1 ∧ chg F ppud d0 d1 u0 u1 ≤ 0 := by
  have ha := Setup.get_n_nonneg d0 ppud u0 true h0 hp hu0
  have hb := Setup.get_n_nonneg d1 ppud u1 true h1 hp hu1
  unfold chg
  generalize Setup.get_n_in_cell d0 ppud true u0 = a at ha
  generalize Setup.get_n_in_cell d1 ppud true u1 = b at hb
  lift a to ℕ using ha
  lift b to ℕ using hb
  have hx : (0 : ℝ) ≤ (((a : ℤ) + (b : ℤ) : ℤ) : ℝ) / F.Zi := div_nonneg (by push_cast; positivity) hZ.le
  rw [toInt_nonneg hx]
  have hf : (0 : ℤ) ≤ ⌊(((a : ℤ) + (b : ℤ) : ℤ) : ℝ) / F.Zi⌋ := Int.floor_nonneg.2 hx
  have e1 := Int.floor_le ((((a : ℤ) + (b : ℤ) : ℤ) : ℝ) / F.Zi)
  have e2 := Int.lt_floor_add_one ((((a : ℤ) + (b : ℤ) : ℤ) : ℝ) / F.Zi)
  rw [le_div_iff₀ hZ] at e1
  rw [div_lt_iff₀ hZ] at e2
  generalize ⌊(((a : ℤ) + (b : ℤ) : ℤ) : ℝ) / F.Zi⌋ = c at *
  lift c to ℕ using hf
  push_cast at e1 e2
  simp only [Int.toNat_natCast]
  constructor <;> nlinarith

theorem cellQ_eq (F : Params) (ppud dt d0 d1 u0 u1 : ℝ) (init : ℕ → Setup.Npt ℝ → Setup.Npt ℝ) :
    cellQ (driver F ppud dt) [(Setup.get_n_in_cell d0 ppud true u0, npOf init 0), (Setup.get_n_in_cell d1 ppud true u1, npOf init 1),
      (Setup.toInt (((Setup.get_n_in_cell d0 ppud true u0 + Setup.get_n_in_cell d1 ppud true u1 : ℤ) : ℝ) / F.Zi), npOf init 2)] =
    chg F ppud d0 d1 u0 u1 := by
  have hsum : ∀ a b c : ℕ, (a : ℝ) * (1 * (charges F).getD 0 0) + ((b : ℝ) * (1 * (charges F).getD 1 0) + ((c : ℝ) * (1 * (charges F).getD 2 0) + 0)) =
      F.Zi * c - a - b := by
    intro a b c
    simp [charges]
    ring
  unfold chg
  rw [← hsum]
  rfl

theorem driver_ok {F : Params} (hZ : F.Zi ≠ 0) (ppud dt : ℝ) : Ok (driver F ppud dt) where
  q := by
    intro k
    show (charges F).getD k 0 ≠ 0 ↔ k < 3
    unfold charges
    match k with
    | 0 => simp
    | 1 => simp
    | 2 => simpa using hZ
    | k + 3 => simp
  cell := by
    intro rnd init j
    obtain ⟨j0, j1, s, h⟩ := cell3 F ppud rnd init j
    refine ⟨_, s, h, fun o ho => ?_⟩
    show o.2.kind < 3
    simp only [List.mem_cons, List.not_mem_nil, or_false] at ho
    rcases ho with rfl | rfl | rfl <;> simp [npOf]

theorem cell_bound (F : Params) (ppud dt : ℝ) (rnd : ℕ → ℝ) (init : ℕ → Setup.Npt ℝ → Setup.Npt ℝ) (lo hi : ℝ)
    (hb : ∀ j0 j1, lo ≤ chg F ppud (ask init 0).n (ask init 1).n (rnd j0) (rnd j1) ∧ chg F ppud (ask init 0).n (ask init 1).n (rnd j0) (rnd j1) ≤ hi) :
    CellBound (driver F ppud dt) rnd init lo hi := by
  intro j l s h
  obtain ⟨j0, j1, s', h'⟩ := cell3 F ppud rnd init j
  have e : some (l, s) = some _ := h.symm.trans h'
  obtain ⟨rfl, -⟩ := Prod.mk.inj (Option.some.inj e)
  rw [cellQ_eq]
  exact hb j0 j1

theorem chg_zero {F : Params} (hZ : F.Zi = 1) {ppud d0 d1 u0 u1 : ℝ} (hp : 0 ≤ ppud) (h0 : 0 ≤ d0) (h1 : 0 ≤ d1) (hu0 : 0 ≤ u0) (hu1 : 0 ≤ u1) :
    chg F ppud d0 d1 u0 u1 = 0 := by
  have ha := Setup.get_n_nonneg d0 ppud u0 true h0 hp hu0
  have hb := Setup.get_n_nonneg d1 ppud u1 true h1 hp hu1
  unfold chg
  generalize Setup.get_n_in_cell d0 ppud true u0 = a at ha
  generalize Setup.get_n_in_cell d1 ppud true u1 = b at hb
  rw [hZ, div_one, Setup.toInt_int]
  lift a to ℕ using ha
  lift b to ℕ using hb
  have e : (((a : ℤ) + (b : ℤ)).toNat : ℝ) = a + b := by
    rw [show ((a : ℤ) + (b : ℤ)).toNat = a + b by omega]; push_cast; ring
  rw [e]
  simp

theorem initial_neutral {F : Params} (hZ : F.Zi = 1) (hs : F.Sound) {ppud : ℝ} (hp : 0 ≤ ppud) (dt : ℝ) {rnd : ℕ → ℝ} (hr : ∀ j, 0 ≤ rnd j) (pos : R3 ℝ) :
    CellBound (driver F ppud dt) rnd ((driver F ppud dt).initial pos) 0 0 :=
  cell_bound F ppud dt rnd _ 0 0 fun j0 j1 => by
    have := chg_zero hZ hp (initial_nonneg hs pos 0) (initial_nonneg hs pos 1) (hr j0) (hr j1)
    exact ⟨this.ge, this.le⟩

theorem driver_neutral {F : Params} (hZ : F.Zi = 1) (hs : F.Sound) {ppud : ℝ} (hp : 0 ≤ ppud) {dt : ℝ} (hdt : 0 < dt) : Neutral (driver F ppud dt) :=
  fun hi rnd hr h pos => cell_bound F ppud dt rnd _ 0 0 fun j0 j1 => by
    have := chg_zero hZ hp (inject_nonneg hs hi hdt h pos 0) (inject_nonneg hs hi hdt h pos 1) (hr j0) (hr j1)
    exact ⟨this.ge, this.le⟩

theorem field_E (F : Params) (ppud dt : ℝ) (e : Fin 3) (x : R3 ℝ) : (driver F ppud dt).field (EX + e) x = 0 := by
  show (if EX + e = HX + 1 then F.BB else 0) = 0
  rw [if_neg (by unfold EX HX; omega)]

/-! ### Whole patches -/

theorem is_inside_box (F : Params) (x : R3 ℝ) : is_inside F x = InBox F.lo F.hi x := rfl

theorem at_cell (S : Pic.Setup) (D : Driver) (corner : R3 ℝ) (r p : ℕ) (n : I3) :
    CellInject.posOf S D corner r p n = fun d => corner d + S.c.off r p d * S.P.dx d + spot S n d := by
  funext d
  rw [pos_spot]
  show S.c.off r p d * S.P.dx d + corner d + _ = _
  ring

/-- numbers of particles of each kind in a cell -/
theorem num3 {S : Pic.Setup} (hF : Fit S 2) {F : Params} (hk : Kinds S F) (hZ : F.Zi ≠ 0) (ppud dt : ℝ) (corner : R3 ℝ)
    (init : I3 → ℕ → Setup.Npt ℝ → Setup.Npt ℝ) (R : InitDensity.Random) (r p : ℕ) {l : List Push.Prt}
    (h : setupPatch S (driver F ppud dt) corner init R r p = some l) {n : I3} (hn : Interior S.c n) :
    ∃ j a b c, counts F ppud R.rnd (init n) j = some [a, b, c] ∧ numAt l 0 (spot S n) = a.toNat ∧ numAt l 1 (spot S n) = b.toNat ∧
      numAt l 2 (spot S n) = c.toNat ∧ ∀ k, 3 ≤ k → numAt l k (spot S n) = 0 := by
  obtain ⟨j, L, s, e, hl⟩ := (placed hF.dx hF.pos (driver_ok hZ ppud dt) hk rfl corner init R r p h).2 n ((InitDensity.mem_cells _ _).2 hn)
  obtain ⟨j0, j1, s', e'⟩ := cell3 F ppud R.rnd (init n) j
  have hL := congrArg Prod.fst (Option.some.inj (e.symm.trans e'))
  dsimp only at hL
  subst hL
  refine ⟨j, _, _, _, by unfold counts; rw [e']; rfl, ?_, ?_, ?_, fun k hk3 => ?_⟩
  · rw [hl]; simp [npOf]
  · rw [hl]; simp [npOf]
  · rw [hl]; simp [npOf]
  · rw [hl]
    have h0 : (0 : ℕ) ≠ k := by omega
    have h1 : (1 : ℕ) ≠ k := by omega
    have h2 : (2 : ℕ) ≠ k := by omega
    simp [npOf, h0, h1, h2]

end Psc.Foil
