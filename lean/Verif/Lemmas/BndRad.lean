import Verif.Lemmas.BndFields

namespace Psc.BndFields

open Domain Fields Ddc FieldStep Spec Yee Psc.Props

section
variable {K : Type} [Field K]

theorem fin3_12 (d : Fin 3) : (d + 2 : Fin 3) ≠ d + 1 := by revert d; decide

theorem fin3_arith (d : Fin 3) : (d + 1 + 1 : Fin 3) = d + 2 ∧ (d + 1 + 2 : Fin 3) = d ∧ (d + 2 + 1 : Fin 3) = d ∧
    (d + 2 + 2 : Fin 3) = d + 1 := by revert d; decide

/-! ### one direction among the sides -/

/-- what the loop over the directions does for one of them -/
def side1 (at_ : Fin 3 → Bool) (bc : Fin 3 → FldBC) (wall open_ : Fin 3 → PF K → Option (PF K)) (d : Fin 3) (F : PF K) :
    Option (PF K) :=
  if at_ d then
    match bc d with
    | .periodic => some F
    | .conducting => wall d F
    | .open => open_ d F
    | .other => none
  else some F

theorem sides_eq (at_ : Fin 3 → Bool) (bc : Fin 3 → FldBC) (wall open_ : Fin 3 → PF K → Option (PF K)) (F : PF K) :
    sides at_ bc wall open_ F =
      (side1 at_ bc wall open_ 0 F).bind fun F => (side1 at_ bc wall open_ 1 F).bind fun F => side1 at_ bc wall open_ 2 F := by
  unfold sides
  rw [show List.finRange 3 = [0, 1, 2] from rfl]
  simp only [List.foldlM_cons, List.foldlM_nil, bind, pure]
  unfold side1
  congr 1; funext F
  congr 1; funext F
  exact Option.bind_fun_some _

theorem sides_split {at_ : Fin 3 → Bool} {bc : Fin 3 → FldBC} {wall open_ : Fin 3 → PF K → Option (PF K)}
    (T : Fin 3 → ℕ × I3 → Prop)
    (hT : ∀ d F F', side1 at_ bc wall open_ d F = some F' → ∀ k, ¬ T d k → F' k = F k) (d : Fin 3)
    {F F' : PF K} (h : sides at_ bc wall open_ F = some F') :
    ∃ G G', side1 at_ bc wall open_ d G = some G' ∧ ∀ k, (∀ d', d' ≠ d → ¬ T d' k) → G k = F k ∧ F' k = G' k := by
  rw [sides_eq] at h
  simp only [Option.bind_eq_some_iff] at h
  obtain ⟨F1, h1, F2, h2, h3⟩ := h
  have hd : d = 0 ∨ d = 1 ∨ d = 2 := by revert d; decide
  rcases hd with rfl | rfl | rfl
  · refine ⟨F, F1, h1, fun k hk => ⟨rfl, ?_⟩⟩
    rw [hT _ _ _ h3 k (hk 2 (by decide)), hT _ _ _ h2 k (hk 1 (by decide))]
  · refine ⟨F1, F2, h2, fun k hk => ⟨hT _ _ _ h1 k (hk 0 (by decide)), hT _ _ _ h3 k (hk 2 (by decide))⟩⟩
  · refine ⟨F2, F', h3, fun k hk => ⟨?_, rfl⟩⟩
    rw [hT _ _ _ h2 k (hk 1 (by decide)), hT _ _ _ h1 k (hk 0 (by decide))]

/-- cells one side of the magnetic fill may change -/
def TloAt (c : Cfg) (b : BndP K) (r p : ℕ) (mb : ℕ) (d : Fin 3) (k : ℕ × I3) : Prop :=
  atLo c r p d = true ∧ b.fld_lo d ≠ .periodic ∧ Tlo mb d k

/-- see `TloAt` -/
def ThiAt (c : Cfg) (g : GridP K) (b : BndP K) (r p : ℕ) (mb : ℕ) (d : Fin 3) (k : ℕ × I3) : Prop :=
  atHi c r p d = true ∧ b.fld_hi d ≠ .periodic ∧ Thi g mb d k

theorem sideH_lo {c : Cfg} {g : GridP K} {b : BndP K} (h : FitsB c g b) (r p : ℕ) (d : Fin 3) (F F' : PF K)
    (hF : side1 (atLo c r p) b.fld_lo (conducting_wall c g (-1) wallH_lo) (fun d F => some (radiative_H_lo c g b p d F)) d F = some F')
    (k : ℕ × I3) (hk : ¬ TloAt c b r p HX d k) : F' k = F k := by
  unfold side1 at hF
  split_ifs at hF with ha
  · cases hb : b.fld_lo d with
    | periodic => rw [hb] at hF; simp only [Option.some.injEq] at hF; rw [hF]
    | conducting =>
      rw [hb] at hF
      have hb' : b.fld_lo d ≠ .periodic := by rw [hb]; decide
      exact conducting_frame c g (-1) _ d (Tlo HX d) (wallH_lo_frame g d (h.lo_dir hb').1) hF k
        (fun ht => hk ⟨ha, hb', ht⟩)
    | «open» =>
      rw [hb] at hF
      have hb' : b.fld_lo d ≠ .periodic := by rw [hb]; decide
      simp only [Option.some.injEq] at hF
      rw [← hF]
      exact radiative_lo_frame c g b p d (h.lo_dir hb').1 F k (fun ht => hk ⟨ha, hb', ht⟩)
    | other => rw [hb] at hF; simp at hF
  · simp only [Option.some.injEq] at hF; rw [hF]

theorem sideH_hi {c : Cfg} {g : GridP K} {b : BndP K} (h : FitsB c g b) (r p : ℕ) (d : Fin 3) (F F' : PF K)
    (hF : side1 (atHi c r p) b.fld_hi (conducting_wall c g (-2) wallH_hi) (fun d F => some (radiative_H_hi c g b p d F)) d F = some F')
    (k : ℕ × I3) (hk : ¬ ThiAt c g b r p HX d k) : F' k = F k := by
  unfold side1 at hF
  split_ifs at hF with ha
  · cases hb : b.fld_hi d with
    | periodic => rw [hb] at hF; simp only [Option.some.injEq] at hF; rw [hF]
    | conducting =>
      rw [hb] at hF
      have hb' : b.fld_hi d ≠ .periodic := by rw [hb]; decide
      exact conducting_frame c g (-2) _ d (Thi g HX d) (wallH_hi_frame g d (h.hi_dir hb').1) hF k
        (fun ht => hk ⟨ha, hb', ht⟩)
    | «open» =>
      rw [hb] at hF
      have hb' : b.fld_hi d ≠ .periodic := by rw [hb]; decide
      simp only [Option.some.injEq] at hF
      rw [← hF]
      exact radiative_hi_frame c g b p d (h.hi_dir hb').1 F k (fun ht => hk ⟨ha, hb', ht⟩)
    | other => rw [hb] at hF; simp at hF
  · simp only [Option.some.injEq] at hF; rw [hF]

/-! ### the values written by the radiating boundary -/

/-- what `radLo` writes to the two tangential components -/
def vLo (g : GridP K) (b : BndP K) (p : ℕ) (d : Fin 3) (F : PF K) (i3 : I3) : K × K :=
  let d1 := d + 1
  let d2 := d + 2
  let edge := sh i3 d 1
  let sp := pulses_lo g b p d edge
  ((4 * sp.1 - 2 * (rd g F (EX + d1) edge - b.background_e d1) -
      dtdx g d2 * (rd g F (HX + d) edge - rd g F (HX + d) (sh edge d2 (-1))) -
      (1 - dtdx g d) * (rd g F (HX + d2) edge - b.background_h d2) +
      g.dt * rd g F (JXI + d1) edge) / (1 + dtdx g d) + b.background_h d2,
   (-4 * sp.2 + 2 * (rd g F (EX + d2) edge - b.background_e d2) -
      dtdx g d1 * (rd g F (HX + d) edge - rd g F (HX + d) (sh edge d1 (-1))) -
      (1 - dtdx g d) * (rd g F (HX + d1) edge - b.background_h d1) +
      g.dt * rd g F (JXI + d2) edge) / (1 + dtdx g d) + b.background_h d1)

/-- what `radHi` writes to the two tangential components -/
def vHi (g : GridP K) (b : BndP K) (p : ℕ) (d : Fin 3) (F : PF K) (i3 : I3) : K × K :=
  let d1 := d + 1
  let d2 := d + 2
  let edge := sh i3 d (-1)
  let sp := pulses_hi g b p d edge
  ((-4 * sp.1 + 2 * (rd g F (EX + d1) i3 - b.background_e d1) +
      dtdx g d2 * (rd g F (HX + d) i3 - rd g F (HX + d) (sh i3 d2 (-1))) -
      (1 - dtdx g d) * (rd g F (HX + d2) edge - b.background_h d2) -
      g.dt * rd g F (JXI + d1) i3) / (1 + dtdx g d) + b.background_h d2,
   (4 * sp.2 - 2 * (rd g F (EX + d2) i3 - b.background_e d2) +
      dtdx g d1 * (rd g F (HX + d) i3 - rd g F (HX + d) (sh i3 d1 (-1))) -
      (1 - dtdx g d) * (rd g F (HX + d1) edge - b.background_h d1) -
      g.dt * rd g F (JXI + d2) i3) / (1 + dtdx g d) + b.background_h d1)

/-- the cells whose values the radiating boundary of side `d`, ghost layer `y`, does not change -/
def Kept (d : Fin 3) (y : ℤ) (k : ℕ × I3) : Prop := k.1 < 6 ∨ k.1 = HX + d ∨ k.2 d ≠ y

theorem vLo_congr {g : GridP K} {b : BndP K} {p : ℕ} {d : Fin 3} (hd : g.inv d = false) {F G : PF K} {i3 : I3} (hi : i3 d = -1)
    (h : ∀ k, Kept d (-1) k → G k = F k) : vLo g b p d G i3 = vLo g b p d F i3 := by
  have r1 : ∀ (m : Fin 3) (n : I3), rd g G (EX + m) n = rd g F (EX + m) n :=
    fun m n => h _ (.inl (by simp only [EX]; omega))
  have r2 : ∀ (m : Fin 3) (n : I3), rd g G (JXI + m) n = rd g F (JXI + m) n :=
    fun m n => h _ (.inl (by simp only [JXI]; omega))
  have r3 : ∀ (n : I3), rd g G (HX + d) n = rd g F (HX + d) n := fun n => h _ (.inr (.inl rfl))
  have r4 : ∀ (m : Fin 3), rd g G (HX + m) (sh i3 d 1) = rd g F (HX + m) (sh i3 d 1) :=
    fun m => h _ (.inr (.inr (by simp only; rw [pos_act hd]; simp [sh, hi])))
  unfold vLo
  simp only [r1, r2, r3, r4]

theorem vHi_congr {g : GridP K} {b : BndP K} {p : ℕ} {d : Fin 3} (hd : g.inv d = false) {F G : PF K} {i3 : I3}
    (hi : i3 d = g.ldims d)
    (h : ∀ k, Kept d (g.ldims d) k → G k = F k) : vHi g b p d G i3 = vHi g b p d F i3 := by
  have r1 : ∀ (m : Fin 3) (n : I3), rd g G (EX + m) n = rd g F (EX + m) n :=
    fun m n => h _ (.inl (by simp only [EX]; omega))
  have r2 : ∀ (m : Fin 3) (n : I3), rd g G (JXI + m) n = rd g F (JXI + m) n :=
    fun m n => h _ (.inl (by simp only [JXI]; omega))
  have r3 : ∀ (n : I3), rd g G (HX + d) n = rd g F (HX + d) n := fun n => h _ (.inr (.inl rfl))
  have r4 : ∀ (m : Fin 3), rd g G (HX + m) (sh i3 d (-1)) = rd g F (HX + m) (sh i3 d (-1)) :=
    fun m => h _ (.inr (.inr (by simp only; rw [pos_act hd]; simp [sh, hi])))
  unfold vHi
  simp only [r1, r2, r3, r4]

theorem kept_ne {g : GridP K} {d : Fin 3} (hd : g.inv d = false) {y : ℤ} {i3 : I3} (hi : i3 d = y) {k : ℕ × I3} (hk : Kept d y k)
    (m : Fin 3) (hm : m ≠ d) : k ≠ (HX + (m : ℕ), pos g.inv i3) := by
  rintro rfl
  rcases hk with h | h | h
  · simp only [HX] at h; omega
  · apply hm; ext; simp only [HX] at h; omega
  · apply h; simp only; rw [pos_act hd]; exact hi

theorem radLo_val {g : GridP K} {b : BndP K} {p : ℕ} {d : Fin 3} (hd : g.inv d = false) (G : PF K) {i3 : I3} (hi : i3 d = -1) :
    (∀ k, Kept d (-1) k → radLo g b p d G i3 k = G k) ∧
    radLo g b p d G i3 (HX + ((d + 2 : Fin 3) : ℕ), pos g.inv i3) = (vLo g b p d G i3).1 ∧
    radLo g b p d G i3 (HX + ((d + 1 : Fin 3) : ℕ), pos g.inv i3) = (vLo g b p d G i3).2 := by
  refine ⟨fun k hk => radLo_frame g b p d G i3 k (kept_ne hd hi hk _ (fin3_ne d).1) (kept_ne hd hi hk _ (fin3_ne d).2), ?_, ?_⟩
  · unfold radLo
    rw [wr_other, wr_same]
    · rfl
    · intro h
      rw [Prod.mk.injEq] at h
      have : (d + 2 : Fin 3) = d + 1 := by ext; simp only [HX] at h; omega
      exact fin3_12 d this
  · have := vLo_congr (b := b) (p := p) hd hi (F := G)
      (G := wr g G (HX + ((d + 2 : Fin 3) : ℕ)) i3 (vLo g b p d G i3).1)
      (fun k hk => wr_other (kept_ne hd hi hk _ (fin3_ne d).2))
    rw [← this]
    unfold radLo
    rw [wr_same]
    rfl

theorem radHi_val {g : GridP K} {b : BndP K} {p : ℕ} {d : Fin 3} (hd : g.inv d = false) (G : PF K) {i3 : I3}
    (hi : i3 d = g.ldims d) :
    (∀ k, Kept d (g.ldims d) k → radHi g b p d G i3 k = G k) ∧
    radHi g b p d G i3 (HX + ((d + 2 : Fin 3) : ℕ), pos g.inv i3) = (vHi g b p d G i3).1 ∧
    radHi g b p d G i3 (HX + ((d + 1 : Fin 3) : ℕ), pos g.inv i3) = (vHi g b p d G i3).2 := by
  refine ⟨fun k hk => radHi_frame g b p d G i3 k (kept_ne hd hi hk _ (fin3_ne d).1) (kept_ne hd hi hk _ (fin3_ne d).2), ?_, ?_⟩
  · unfold radHi
    rw [wr_other, wr_same]
    · rfl
    · intro h
      rw [Prod.mk.injEq] at h
      have : (d + 2 : Fin 3) = d + 1 := by ext; simp only [HX] at h; omega
      exact fin3_12 d this
  · have := vHi_congr (b := b) (p := p) hd hi (F := G)
      (G := wr g G (HX + ((d + 2 : Fin 3) : ℕ)) i3 (vHi g b p d G i3).1)
      (fun k hk => wr_other (kept_ne hd hi hk _ (fin3_ne d).2))
    rw [← this]
    unfold radHi
    rw [wr_same]
    rfl

/-- in the invariant directions the index is 0 -/
def Act0 (g : GridP K) (n : I3) : Prop := ∀ d, g.inv d = true → n d = 0

theorem pos_eq {g : GridP K} {n : I3} (h : Act0 g n) : pos g.inv n = n := by
  funext d
  cases hd : g.inv d with
  | false => exact pos_act hd
  | true => simp [pos, ix, hd, h d hd]

theorem radiative_lo_value {c : Cfg} {g : GridP K} {b : BndP K} (h : FitsB c g b) (p : ℕ) {d : Fin 3} (hd : g.inv d = false)
    (F : PF K) {i3 : I3} (hi : i3 ∈ box (Function.update (ibOf c) d (-1)) (Function.update (ieOf c) d 0)) :
    radiative_H_lo c g b p d F (HX + ((d + 2 : Fin 3) : ℕ), i3) = (vLo g b p d F i3).1 ∧
    radiative_H_lo c g b p d F (HX + ((d + 1 : Fin 3) : ℕ), i3) = (vLo g b p d F i3).2 := by
  have hin : ∀ i ∈ box (Function.update (ibOf c) d (-1)) (Function.update (ieOf c) d 0), i d = -1 ∧ Act0 g i := by
    intro i hi
    have hb := mem_box.1 hi
    constructor
    · have := hb d; rw [Function.update_self, Function.update_self] at this; omega
    · intro e he
      have hed : e ≠ d := by rintro rfl; rw [hd] at he; cases he
      have := hb e
      rw [Function.update_of_ne hed, Function.update_of_ne hed] at this
      simp only [ibOf, ieOf, (h.inv e he).2.2.1, h.ldims, (h.inv e he).1] at this
      omega
  have key := foldl_each (box (Function.update (ibOf c) d (-1)) (Function.update (ieOf c) d 0)) (radLo g b p d)
    (fun G => ∀ k, Kept d (-1) k → G k = F k)
    (fun i G => G (HX + ((d + 2 : Fin 3) : ℕ), i) = (vLo g b p d F i).1 ∧
      G (HX + ((d + 1 : Fin 3) : ℕ), i) = (vLo g b p d F i).2) ?_ ?_ F (fun _ _ => rfl)
  · exact key.2 i3 hi
  · intro i hi G hG
    obtain ⟨h1, h2⟩ := hin i hi
    obtain ⟨v0, v1, v2⟩ := radLo_val (b := b) (p := p) hd G h1
    rw [pos_eq h2] at v1 v2
    refine ⟨fun k hk => by rw [v0 k hk]; exact hG k hk, ?_, ?_⟩
    · rw [v1, vLo_congr hd h1 hG]
    · rw [v2, vLo_congr hd h1 hG]
  · intro a ha a' ha' G hG hP
    obtain ⟨h1, h2⟩ := hin a ha
    obtain ⟨h1', h2'⟩ := hin a' ha'
    by_cases haa : a = a'
    · subst haa
      obtain ⟨v0, v1, v2⟩ := radLo_val (b := b) (p := p) hd G h1
      rw [pos_eq h2] at v1 v2
      exact ⟨by rw [v1, vLo_congr hd h1 hG], by rw [v2, vLo_congr hd h1 hG]⟩
    · have ne : ∀ m m' : ℕ, (m, a) ≠ (m', pos g.inv a') := by
        intro m m' he; rw [Prod.mk.injEq, pos_eq h2'] at he; exact haa he.2
      rw [radLo_frame g b p d G a' _ (ne _ _) (ne _ _), radLo_frame g b p d G a' _ (ne _ _) (ne _ _)]
      exact hP

theorem radiative_hi_value {c : Cfg} {g : GridP K} {b : BndP K} (h : FitsB c g b) (p : ℕ) {d : Fin 3} (hd : g.inv d = false)
    (F : PF K) {i3 : I3} (hi : i3 ∈ box (Function.update (ibOf c) d (g.ldims d)) (Function.update (ieOf c) d (g.ldims d + 1))) :
    radiative_H_hi c g b p d F (HX + ((d + 2 : Fin 3) : ℕ), i3) = (vHi g b p d F i3).1 ∧
    radiative_H_hi c g b p d F (HX + ((d + 1 : Fin 3) : ℕ), i3) = (vHi g b p d F i3).2 := by
  have hin : ∀ i ∈ box (Function.update (ibOf c) d (g.ldims d)) (Function.update (ieOf c) d (g.ldims d + 1)),
      i d = g.ldims d ∧ Act0 g i := by
    intro i hi
    have hb := mem_box.1 hi
    constructor
    · have := hb d; rw [Function.update_self, Function.update_self] at this; omega
    · intro e he
      have hed : e ≠ d := by rintro rfl; rw [hd] at he; cases he
      have := hb e
      rw [Function.update_of_ne hed, Function.update_of_ne hed] at this
      simp only [ibOf, ieOf, (h.inv e he).2.2.1, h.ldims, (h.inv e he).1] at this
      omega
  have key := foldl_each (box (Function.update (ibOf c) d (g.ldims d)) (Function.update (ieOf c) d (g.ldims d + 1))) (radHi g b p d)
    (fun G => ∀ k, Kept d (g.ldims d) k → G k = F k)
    (fun i G => G (HX + ((d + 2 : Fin 3) : ℕ), i) = (vHi g b p d F i).1 ∧
      G (HX + ((d + 1 : Fin 3) : ℕ), i) = (vHi g b p d F i).2) ?_ ?_ F (fun _ _ => rfl)
  · exact key.2 i3 hi
  · intro i hi G hG
    obtain ⟨h1, h2⟩ := hin i hi
    obtain ⟨v0, v1, v2⟩ := radHi_val (b := b) (p := p) hd G h1
    rw [pos_eq h2] at v1 v2
    refine ⟨fun k hk => by rw [v0 k hk]; exact hG k hk, ?_, ?_⟩
    · rw [v1, vHi_congr hd h1 hG]
    · rw [v2, vHi_congr hd h1 hG]
  · intro a ha a' ha' G hG hP
    obtain ⟨h1, h2⟩ := hin a ha
    obtain ⟨h1', h2'⟩ := hin a' ha'
    by_cases haa : a = a'
    · subst haa
      obtain ⟨v0, v1, v2⟩ := radHi_val (b := b) (p := p) hd G h1
      rw [pos_eq h2] at v1 v2
      exact ⟨by rw [v1, vHi_congr hd h1 hG], by rw [v2, vHi_congr hd h1 hG]⟩
    · have ne : ∀ m m' : ℕ, (m, a) ≠ (m', pos g.inv a') := by
        intro m m' he; rw [Prod.mk.injEq, pos_eq h2'] at he; exact haa he.2
      rw [radHi_frame g b p d G a' _ (ne _ _) (ne _ _), radHi_frame g b p d G a' _ (ne _ _) (ne _ _)]
      exact hP

/-! ### after the exchange -/

theorem shift_act0 {g : GridP K} {n : I3} (h : Act0 g n) {d : Fin 3} (hd : g.inv d = false) (s : ℤ) : Act0 g (shift n d s) := by
  intro e he
  have : e ≠ d := by rintro rfl; rw [hd] at he; cases he
  simp only [shift, if_neg this]
  exact h e he

theorem interior_act0 {c : Cfg} {g : GridP K} {b : BndP K} (h : FitsB c g b) {n : I3} (hn : Interior c n) : Act0 g n := by
  intro e he
  have := hn e
  rw [h.ldims, (h.inv e he).1] at this
  omega

theorem sh_shift (n : I3) (d : Fin 3) (s : ℤ) : sh n d s = shift n d s := rfl

theorem shift_shift (n : I3) (d : Fin 3) (s t : ℤ) : shift (shift n d s) d t = shift n d (s + t) := by
  funext e; unfold shift; split_ifs <;> omega

theorem shift_zero (n : I3) (d : Fin 3) : shift n d 0 = n := by
  funext e; unfold shift; split_ifs <;> omega

/-- the position read for `edge - unit(e)` -/
theorem pos_dn {g : GridP K} {n : I3} (h : Act0 g n) (e : Fin 3) :
    pos g.inv (sh n e (-1)) = if g.inv e then n else shift n e (-1) := by
  cases he : g.inv e with
  | false => simp only [Bool.false_eq_true, if_false]; exact pos_eq (shift_act0 h he _)
  | true =>
    simp only [if_true]
    funext f
    cases hf : g.inv f with
    | true => simp [pos, ix, hf, h f hf]
    | false =>
      rw [pos_act hf]
      have : f ≠ e := by rintro rfl; rw [hf] at he; cases he
      simp [sh, this]

theorem vLo_at {g : GridP K} {b : BndP K} {p : ℕ} {d : Fin 3} (hd : g.inv d = false) {F G : PF K} {n : I3} (hn : Act0 g n)
    (he : ∀ k : ℕ × I3, k.1 < 6 → G k = F k) (h0 : ∀ m : Fin 3, G (HX + m, n) = F (HX + m, n))
    (h1 : ∀ e, e ≠ d → g.inv e = false → G (HX + d, shift n e (-1)) = F (HX + d, shift n e (-1))) :
    vLo g b p d G (shift n d (-1)) = vLo g b p d F (shift n d (-1)) := by
  have e0 : sh (shift n d (-1)) d 1 = n := by rw [sh_shift, shift_shift]; exact shift_zero n d
  have r1 : ∀ (m : Fin 3) (n : I3), rd g G (EX + m) n = rd g F (EX + m) n := fun m n => he _ (by simp only [EX]; omega)
  have r2 : ∀ (m : Fin 3) (n : I3), rd g G (JXI + m) n = rd g F (JXI + m) n := fun m n => he _ (by simp only [JXI]; omega)
  have r3 : ∀ m : Fin 3, rd g G (HX + m) n = rd g F (HX + m) n := fun m => by
    unfold rd; rw [pos_eq hn]; exact h0 m
  have r4 : ∀ e, e ≠ d → rd g G (HX + d) (sh n e (-1)) = rd g F (HX + d) (sh n e (-1)) := fun e hed => by
    unfold rd
    rw [pos_dn hn]
    cases hi : g.inv e with
    | true => exact h0 d
    | false => exact h1 e hed hi
  unfold vLo
  simp only [e0, r1, r2, r3, r4 _ (fin3_ne d).1, r4 _ (fin3_ne d).2]

theorem vHi_at {g : GridP K} {b : BndP K} {p : ℕ} {d : Fin 3} (hd : g.inv d = false) {F G : PF K} {n : I3} (hn : Act0 g n)
    (he : ∀ k : ℕ × I3, k.1 < 6 → G k = F k) (h0 : G (HX + d, n) = F (HX + d, n))
    (h1 : ∀ e, e ≠ d → g.inv e = false → G (HX + d, shift n e (-1)) = F (HX + d, shift n e (-1)))
    (h2 : ∀ m : Fin 3, G (HX + m, shift n d (-1)) = F (HX + m, shift n d (-1))) :
    vHi g b p d G n = vHi g b p d F n := by
  have r1 : ∀ (m : Fin 3) (n : I3), rd g G (EX + m) n = rd g F (EX + m) n := fun m n => he _ (by simp only [EX]; omega)
  have r2 : ∀ (m : Fin 3) (n : I3), rd g G (JXI + m) n = rd g F (JXI + m) n := fun m n => he _ (by simp only [JXI]; omega)
  have r3 : rd g G (HX + d) n = rd g F (HX + d) n := by
    unfold rd; rw [pos_eq hn]; exact h0
  have r5 : ∀ m : Fin 3, rd g G (HX + m) (sh n d (-1)) = rd g F (HX + m) (sh n d (-1)) := fun m => by
    unfold rd; rw [pos_dn hn, hd]; exact h2 m
  have r4 : ∀ e, e ≠ d → rd g G (HX + d) (sh n e (-1)) = rd g F (HX + d) (sh n e (-1)) := fun e hed => by
    unfold rd
    rw [pos_dn hn]
    cases hi : g.inv e with
    | true => exact h0
    | false => exact h1 e hed hi
  unfold vHi
  simp only [r1, r2, r3, r5, r4 _ (fin3_ne d).1, r4 _ (fin3_ne d).2]

/-- `faraday` in a ghost cell next to the interior -/
theorem pushH_ghost {c : Cfg} {g : GridP K} {b : BndP K} (h : FitsB c g b) (fac : K) {σ : Glob K} {E H : VF K}
    (hE : ∀ d : Fin 3, HoldsIn c σ (EX + d) (E d)) (hH : ∀ d : Fin 3, HoldsIn c σ (HX + d) (H d))
    {r p : ℕ} (hp : c.D.Has r p) {n : I3} (hn : Region g 2 1 n) (hs : Stored c n) (hd : InDomain c r p n) (d : Fin 3)
    (hu : ∀ e, e ≠ d → g.inv e = false → Stored c (shift n e 1) ∧ InDomain c r p (shift n e 1)) :
    pushH g fac σ r p (HX + d, n) = faraday g.act g.dx (fac * g.dt) E H d (fun d => c.off r p d + n d) := by
  have one : ∀ (m e : Fin 3), e ≠ d → dF g.act g.dx (cv ((toFlds (σ r p)).E m)) e n =
      dF g.act g.dx (E m) e (fun d => c.off r p d + n d) := by
    intro m e hed
    unfold dF
    cases he : g.inv e with
    | true => simp [GridP.act, he]
    | false =>
      simp only [GridP.act, he, Bool.not_false, if_true, toFlds_E]
      rw [hE m r p hp n hs hd, hE m r p hp _ (hu e hed he).1 (hu e hed he).2, shift_add]
  unfold pushH
  rw [ofFlds_H, (push_H_eq g h.gridOk fac (toFlds (σ r p))).2.2 d n, if_pos hn]
  simp only [faraday, curlE]
  rw [one _ _ (fin3_ne d).1, one _ _ (fin3_ne d).2, toFlds_H, hH d r p hp n hs hd]
  ring

theorem not_TH_E {c : Cfg} {g : GridP K} {r p : ℕ} {k : ℕ × I3} (hk : k.1 < 6) : ¬ TH c g r p k := by
  rintro ⟨m, hm, -⟩; simp only [HX] at hm; omega

theorem not_TH_in {c : Cfg} {g : GridP K} {r p : ℕ} {m : ℕ} {n : I3} (hd : InDomain c r p n) : ¬ TH c g r p (m, n) := by
  rintro ⟨-, -, e, -, hb, ht⟩
  rcases hd e with h0 | h0
  · rw [h0] at hb; cases hb
  · simp only at ht; omega

theorem seg_lo {c : Cfg} {g : GridP K} {b : BndP K} (h : FitsB c g b) {σ σ1 σ2 : Glob K} {E H : VF K}
    (pE : ∀ d, Periodic c (E d)) (pH : ∀ d, Periodic c (H d))
    (hE : ∀ d : Fin 3, HoldsIn c σ (EX + d) (E d)) (hH : ∀ d : Fin 3, HoldsIn c σ (HX + d) (H d))
    (h1 : bndAll c (fillH c g b) (pushH g (1/2) σ) = some σ1) (h2 : fillAll c HX (HX + 3) σ1 = some σ2)
    {r p : ℕ} (hp : c.D.Has r p) {d : Fin 3} (ha : atLo c r p d = true) (hb : b.fld_lo d = .open) {n : I3}
    (hn : Interior c n) (hn0 : n d = 0) (hx : Mid c g d (fun d => c.off r p d + n d)) :
    σ2 r p (HX + ((d + 2 : Fin 3) : ℕ), shift n d (-1)) = (vLo g b p d (σ2 r p) (shift n d (-1))).1 ∧
    σ2 r p (HX + ((d + 1 : Fin 3) : ℕ), shift n d (-1)) = (vLo g b p d (σ2 r p) (shift n d (-1))).2 := by
  have hb' : b.fld_lo d ≠ .periodic := by rw [hb]; decide
  obtain ⟨hd, hbc⟩ := h.lo_dir hb'
  have ha' := (atLo_iff c r p d).1 ha
  obtain ⟨H', pH', hH', -, far⟩ := magStep h pE pH hE hH (1/2) h1 h2
  obtain ⟨-, fo⟩ := fillAllB_spec h.ok h.c_pos HX (HX + 3) (by omega) h2
  set F := pushH g (1/2) σ r p with hF
  have hs := bndAll_some h1 hp
  have hs0 := hs
  unfold fillH at hs
  simp only [bind, Option.bind_eq_some_iff] at hs
  obtain ⟨F1, s1, s2⟩ := hs
  obtain ⟨G, G', o1, o2⟩ := sides_split (TloAt c b r p HX) (sideH_lo h r p) d s1
  have oG : G' = radiative_H_lo c g b p d G := by
    unfold side1 at o1
    rw [if_pos ha, hb] at o1
    simp only [Option.some.injEq] at o1
    exact o1.symm
  have hact := interior_act0 h hn
  have hbox : shift n d (-1) ∈ box (Function.update (ibOf c) d (-1)) (Function.update (ieOf c) d 0) := by
    rw [mem_box]
    intro e
    by_cases hed : e = d
    · subst hed; rw [Function.update_self, Function.update_self]; simp [shift, hn0]
    · rw [Function.update_of_ne hed, Function.update_of_ne hed]
      have := hn e
      have := (h.ok.ibn e).1
      simp only [shift, if_neg hed, ibOf, ieOf]; omega
  -- the ghost cell
  have hi_frame : ∀ m : Fin 3, σ1 r p (HX + m, shift n d (-1)) = F1 (HX + m, shift n d (-1)) := by
    intro m
    refine (sides_split (ThiAt c g b r p HX) (sideH_hi h r p) d s2).elim fun A hA => hA.elim fun A' hA' => ?_
    have not : ∀ d', ¬ ThiAt c g b r p HX d' (HX + (m : ℕ), shift n d (-1)) := by
      rintro d' ⟨-, -, m', -, ht⟩
      have := hn d'
      have := h.ldims
      simp only [shift] at ht
      rw [← h.ldims] at ht
      split_ifs at ht <;> omega
    obtain ⟨q1, q2⟩ := hA'.2 (HX + (m : ℕ), shift n d (-1)) (fun d' _ => not d')
    rw [q2, sideH_hi h r p d _ _ hA'.1 _ (not d), q1]
  have ghost : ∀ m : Fin 3, σ2 r p (HX + m, shift n d (-1)) = G' (HX + m, shift n d (-1)) := by
    intro m
    rw [fo r p hp _ _ (.inr (.inl ?_)), hi_frame m, (o2 _ ?_).2]
    · rintro d' hd' ⟨-, -, m', -, ht⟩
      have := hn d'
      simp only [shift, if_neg hd'] at ht
      omega
    · intro hdom
      rcases hdom d with h0 | h0
      · rw [h0] at hbc; cases hbc
      · simp only [shift, if_true, ha', hn0] at h0; omega
  -- what is read
  have hTn : ∀ e, e ≠ d → g.inv e = false → ∀ d', d' ≠ d → ¬ TloAt c b r p HX d' (HX + (d : ℕ), shift n e (-1)) := by
    rintro e hed hie d' hd' ⟨ha2, hb2, m', -, ht⟩
    obtain ⟨i1, i2⟩ := h.lo_dir hb2
    have h3 := hx d' hd' i1 i2
    have h4 := (atLo_iff c r p d').1 ha2
    have := hn d'
    simp only [shift] at ht h3
    rw [h4] at h3
    split_ifs at ht <;> omega
  have read : vLo g b p d G (shift n d (-1)) = vLo g b p d (σ2 r p) (shift n d (-1)) := by
    refine vLo_at hd hact ?_ ?_ ?_
    · intro k hk
      have hk' : k.1 < HX := hk
      rw [(o2 k ?_).1, show k = (k.1, k.2) from rfl, fo r p hp _ _ (.inr (.inr (.inr (.inl hk')))),
        fillH_frame h hs0 _ (not_TH_E hk)]
      rintro d' - ⟨-, -, m, hm, -⟩
      simp only [HX] at hm; omega
    · intro m
      rw [(o2 _ ?_).1, fo r p hp _ _ (.inl hn), fillH_frame h hs0 _ (not_TH_in (interior_inDomain h.ok hp hn))]
      rintro d' - ⟨-, -, m', -, ht⟩
      have := hn d'
      simp only at ht; omega
    · intro e hed hie
      have hdom : InDomain c r p (shift n e (-1)) := dn_inDomain h.ok hp hn e (fun hbe => (hx e hed hie hbe).1)
      have hst : Stored c (shift n e (-1)) := h.shift_stored hn hie (by omega) (by omega)
      rw [(o2 _ (hTn e hed hie)).1, hH' d r p hp _ hst hdom, far r p hp _ hst hdom d]
      · refine pushH_ghost h (1/2) hE hH hp ?_ hst hdom d ?_
        · intro f
          have := hn f
          rw [h.ldims] at this
          have h0 := hact f
          have h9 := h.pos f
          cases hf : g.inv f with
          | true =>
            simp only [if_true]
            have : f ≠ e := by rintro rfl; rw [hf] at hie; cases hie
            simp only [shift, if_neg this]; exact h0 hf
          | false => simp only [Bool.false_eq_true, if_false, shift]; split_ifs <;> omega
        · intro f hfd hif
          constructor
          · intro a
            have := hn a
            have h0 := (h.ok.ibn a).1
            simp only [shift]
            split_ifs with q1 q2 q2
            · have := (h.act a (by rw [q1]; exact hif)).1; omega
            · have := (h.act a (by rw [q1]; exact hif)).1; omega
            · have := (h.act a (by rw [q2]; exact hie)).1; omega
            · omega
          · intro a
            cases hba : c.D.bc a with
            | true => exact .inl rfl
            | false =>
              right
              rcases interior_inDomain h.ok hp hn a with h0 | h0
              · rw [h0] at hba; cases hba
              · simp only [shift]
                split_ifs with q1 q2 q2
                · omega
                · have := hx a (by rw [q1]; exact hfd) (by rw [q1]; exact hif) hba; simp only at this; omega
                · have := hx a (by rw [q2]; exact hed) (by rw [q2]; exact hie) hba; simp only at this; omega
                · omega
      · intro f hfd hif hbf
        have := hx f hfd hif hbf
        simp only [shift] at this ⊢
        split_ifs <;> omega
  have v := radiative_lo_value h p hd G hbox
  rw [ghost, ghost, oG, ← read]
  exact v

theorem seg_hi {c : Cfg} {g : GridP K} {b : BndP K} (h : FitsB c g b) {σ σ1 σ2 : Glob K}
    (h1 : bndAll c (fillH c g b) σ = some σ1) (h2 : fillAll c HX (HX + 3) σ1 = some σ2)
    {r p : ℕ} (hp : c.D.Has r p) {d : Fin 3} (ha : atHi c r p d = true) (hb : b.fld_hi d = .open) {n : I3}
    (hn : ∀ e, e ≠ d → 0 ≤ n e ∧ n e < c.ldims e) (hn0 : n d = c.ldims d) (hx : Mid c g d (fun d => c.off r p d + n d)) :
    σ2 r p (HX + ((d + 2 : Fin 3) : ℕ), n) = (vHi g b p d (σ2 r p) n).1 ∧
    σ2 r p (HX + ((d + 1 : Fin 3) : ℕ), n) = (vHi g b p d (σ2 r p) n).2 := by
  have hb' : b.fld_hi d ≠ .periodic := by rw [hb]; decide
  obtain ⟨hd, hbc⟩ := h.hi_dir hb'
  have ha' := (atHi_iff c r p d).1 ha
  obtain ⟨-, fo⟩ := fillAllB_spec h.ok h.c_pos HX (HX + 3) (by omega) h2
  have hs := bndAll_some h1 hp
  have hs0 := hs
  unfold fillH at hs
  simp only [bind, Option.bind_eq_some_iff] at hs
  obtain ⟨F1, s1, s2⟩ := hs
  obtain ⟨G, G', o1, o2⟩ := sides_split (ThiAt c g b r p HX) (sideH_hi h r p) d s2
  have oG : G' = radiative_H_hi c g b p d G := by
    unfold side1 at o1
    rw [if_pos ha, hb] at o1
    simp only [Option.some.injEq] at o1
    exact o1.symm
  have hact : Act0 g n := by
    intro e he
    have hed : e ≠ d := by rintro rfl; rw [hd] at he; cases he
    have := hn e hed
    rw [h.ldims, (h.inv e he).1] at this
    omega
  have hbox : n ∈ box (Function.update (ibOf c) d (g.ldims d)) (Function.update (ieOf c) d (g.ldims d + 1)) := by
    rw [mem_box]
    intro e
    by_cases hed : e = d
    · subst hed; rw [Function.update_self, Function.update_self, hn0, h.ldims]; omega
    · rw [Function.update_of_ne hed, Function.update_of_ne hed]
      have := hn e hed
      have := (h.ok.ibn e).1
      simp only [ibOf, ieOf]; omega
  have out : ∀ n' : I3, n' d = c.ldims d → ¬ InDomain c r p n' := by
    intro n' hn' hdom
    rcases hdom d with h0 | h0
    · rw [h0] at hbc; cases hbc
    · rw [hn'] at h0; omega
  -- the ghost cell
  have ghost : ∀ m : Fin 3, σ2 r p (HX + m, n) = G' (HX + m, n) := by
    intro m
    rw [fo r p hp _ _ (.inr (.inl (out n hn0))), (o2 _ ?_).2]
    rintro d' hd' ⟨-, -, m', -, ht⟩
    have := hn d' hd'
    simp only [← h.ldims] at ht
    omega
  have hL := h.c_pos d
  have read : vHi g b p d G n = vHi g b p d (σ2 r p) n := by
    refine vHi_at hd hact ?_ ?_ ?_ ?_
    · intro k hk
      have hk' : k.1 < HX := hk
      rw [(o2 k ?_).1, show k = (k.1, k.2) from rfl, fo r p hp _ _ (.inr (.inr (.inr (.inl hk')))),
        fillH_frame h hs0 _ (not_TH_E hk)]
      · refine sides_frame (fun k => ∃ d, TloAt c b r p HX d k) ?_ ?_ s1 _ ?_
        · intro d' ha1 hb1 A A' hA k hk
          refine sideH_lo h r p d' A A' ?_ k (fun ht => hk ⟨d', ht⟩)
          unfold side1; rw [if_pos ha1, hb1]; exact hA
        · intro d' ha1 hb1 A A' hA k hk
          refine sideH_lo h r p d' A A' ?_ k (fun ht => hk ⟨d', ht⟩)
          unfold side1; rw [if_pos ha1, hb1]; exact hA
        · rintro ⟨d', -, -, m, hm, -⟩; simp only [HX] at hm; omega
      · rintro d' - ⟨-, -, m, hm, -⟩
        simp only [HX] at hm; omega
    · rw [fo r p hp _ _ (.inr (.inl (out n hn0))), (o2 _ ?_).2, oG]
      · have : ∀ i ∈ box (Function.update (ibOf c) d (g.ldims d)) (Function.update (ieOf c) d (g.ldims d + 1)), ∀ F : PF K,
            radHi g b p d F i (HX + (d : ℕ), n) = F (HX + (d : ℕ), n) := by
          intro i _ F
          apply radHi_frame
          · intro he; rw [Prod.mk.injEq] at he
            exact (fin3_ne d).1 (by ext; simp only [HX] at he; omega)
          · intro he; rw [Prod.mk.injEq] at he
            exact (fin3_ne d).2 (by ext; simp only [HX] at he; omega)
        unfold radiative_H_hi
        exact (foldl_frame _ _ (fun k => k ≠ (HX + (d : ℕ), n)) (fun i hi F k hk => by
          have hk' : k = (HX + (d : ℕ), n) := by by_contra hne; exact hk hne
          rw [hk']; exact this i hi F) G _ (by simp)).symm
      · rintro d' hd' ⟨-, -, m', -, ht⟩
        have := hn d' hd'
        simp only [← h.ldims] at ht
        omega
    · intro e hed hie
      have hnd : shift n e (-1) d = c.ldims d := by
        simp only [shift, if_neg (Ne.symm hed)]; exact hn0
      rw [fo r p hp _ _ (.inr (.inl (out _ hnd))), (o2 _ ?_).2, oG]
      · have : ∀ i ∈ box (Function.update (ibOf c) d (g.ldims d)) (Function.update (ieOf c) d (g.ldims d + 1)), ∀ F : PF K,
            radHi g b p d F i (HX + (d : ℕ), shift n e (-1)) = F (HX + (d : ℕ), shift n e (-1)) := by
          intro i _ F
          apply radHi_frame
          · intro he; rw [Prod.mk.injEq] at he
            exact (fin3_ne d).1 (by ext; simp only [HX] at he; omega)
          · intro he; rw [Prod.mk.injEq] at he
            exact (fin3_ne d).2 (by ext; simp only [HX] at he; omega)
        unfold radiative_H_hi
        exact (foldl_frame _ _ (fun k => k ≠ (HX + (d : ℕ), shift n e (-1))) (fun i hi F k hk => by
          have hk' : k = (HX + (d : ℕ), shift n e (-1)) := by by_contra hne; exact hk hne
          rw [hk']; exact this i hi F) G _ (by simp)).symm
      · rintro d' hd' ⟨-, -, m', -, ht⟩
        have := hn d' hd'
        simp only [← h.ldims, shift] at ht
        split_ifs at ht <;> omega
    · intro m
      have hi : Interior c (shift n d (-1)) := by
        intro e
        simp only [shift]
        split_ifs with he
        · subst he; omega
        · exact hn e he
      rw [fo r p hp _ _ (.inl hi), (o2 _ ?_).2, oG]
      · refine (radiative_hi_frame c g b p d hd G _ ?_).symm
        rintro ⟨m', -, ht⟩
        simp only [← h.ldims, shift, if_true] at ht
        omega
      · rintro d' hd' ⟨-, -, m', -, ht⟩
        have := hi d'
        simp only [← h.ldims] at ht
        omega
  have v := radiative_hi_value h p hd G hbox
  rw [ghost, ghost, oG, ← read]
  exact v

/-- the push of the two tangential components, written out for the storage of one patch -/
theorem pushE_tan {g : GridP K} (hg : GridOk g) {d : Fin 3} (hd : g.inv d = false) (fac : K) (σ : Glob K) (r p : ℕ) {n : I3}
    (hn : Act0 g n) (hr : Region g 1 2 n) :
    pushE g fac σ r p (EX + ((d + 1 : Fin 3) : ℕ), n) = σ r p (EX + ((d + 1 : Fin 3) : ℕ), n) + fac * g.dt *
      ((rd g (σ r p) (HX + d) n - rd g (σ r p) (HX + d) (sh n (d + 2) (-1))) / g.dx (d + 2) -
       (σ r p (HX + ((d + 2 : Fin 3) : ℕ), n) - σ r p (HX + ((d + 2 : Fin 3) : ℕ), shift n d (-1))) / g.dx d -
       σ r p (JXI + ((d + 1 : Fin 3) : ℕ), n)) ∧
    pushE g fac σ r p (EX + ((d + 2 : Fin 3) : ℕ), n) = σ r p (EX + ((d + 2 : Fin 3) : ℕ), n) + fac * g.dt *
      ((σ r p (HX + ((d + 1 : Fin 3) : ℕ), n) - σ r p (HX + ((d + 1 : Fin 3) : ℕ), shift n d (-1))) / g.dx d -
       (rd g (σ r p) (HX + d) n - rd g (σ r p) (HX + d) (sh n (d + 1) (-1))) / g.dx (d + 1) -
       σ r p (JXI + ((d + 2 : Fin 3) : ℕ), n)) := by
  have dn : ∀ (m e : Fin 3), dB g.act g.dx (cv ((toFlds (σ r p)).H m)) e n =
      (rd g (σ r p) (HX + m) n - rd g (σ r p) (HX + m) (sh n e (-1))) / g.dx e := by
    intro m e
    unfold dB rd
    rw [pos_eq hn, pos_dn hn]
    cases he : g.inv e with
    | true => simp [GridP.act, he]
    | false => simp [GridP.act, he, toFlds_H]
  have rn : ∀ m, rd g (σ r p) m n = σ r p (m, n) := fun m => by unfold rd; rw [pos_eq hn]
  have rd' : ∀ m, rd g (σ r p) m (sh n d (-1)) = σ r p (m, shift n d (-1)) := fun m => by
    unfold rd; rw [pos_dn hn, hd]; rfl
  obtain ⟨f1, f2, f3, f4⟩ := fin3_arith d
  unfold pushE
  constructor
  · rw [ofFlds_E, (push_E_eq g hg fac (toFlds (σ r p))).2.2 _ n, if_pos hr]
    simp only [curlH]
    rw [dn, dn, toFlds_E, toFlds_J, f1, f2, rn (HX + ((d + 2 : Fin 3) : ℕ)), rd' (HX + ((d + 2 : Fin 3) : ℕ))]
  · rw [ofFlds_E, (push_E_eq g hg fac (toFlds (σ r p))).2.2 _ n, if_pos hr]
    simp only [curlH]
    rw [dn, dn, toFlds_E, toFlds_J, f3, f4, rn (HX + ((d + 1 : Fin 3) : ℕ)), rd' (HX + ((d + 1 : Fin 3) : ℕ))]

end

end Psc.BndFields
