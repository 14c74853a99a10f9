import Verif.Lemmas.WallFold

/-!
# The ghost values at conducting walls are mirror images
-/

namespace Psc.BndFields

open Domain Fields Ddc FieldStep Spec Yee

section
variable {K : Type} [Field K]

theorem put_inj (n : I3) (d : Fin 3) {y z : ℤ} : put n d y = put n d z ↔ y = z := by
  refine ⟨fun h => ?_, fun h => by rw [h]⟩
  have := congrFun h d
  rwa [put_self, put_self] at this

theorem pos_put {inv : Fin 3 → Bool} {d : Fin 3} (hd : inv d = false) (n : I3) (y : ℤ) :
    pos inv (put n d y) = put (pos inv n) d y := by
  funext e
  by_cases h : e = d
  · subst h; rw [pos_act hd, put_self, put_self]
  · rw [put_ne _ _ h]; unfold pos ix; rw [put_ne _ _ h]

/-- A wall loop establishes a property that one column's body establishes and the others keep. -/
theorem conducting_col (c : Cfg) (g : GridP K) (lo1 : ℤ) (body : GridP K → Fin 3 → PF K → (ℤ → I3) → PF K) (d : Fin 3)
    (hd : g.inv d = false) (P : PF K → Prop) {n : I3} (hn : ∀ e, e ≠ d → g.inv e = true → n e = 0)
    (hv : Visited c g lo1 d n)
    (hit : ∀ at_ : ℤ → I3, (∀ y, pos g.inv (at_ y) = put n d y) → ∀ F, P (body g d F at_))
    (keep : ∀ at_ : ℤ → I3, (∀ y z, pos g.inv (at_ y) ≠ put n d z) → ∀ F, P F → P (body g d F at_))
    {F F' : PF K} (h : conducting_wall c g lo1 body d F = some F') : P F' := by
  have both : ∀ at_ : ℤ → I3, (∀ y, at_ y = put (at_ 0) d y) → ∀ F, P F → P (body g d F at_) := by
    intro at_ hat F hF
    by_cases he : put (pos g.inv (at_ 0)) d 0 = put n d 0
    · refine hit at_ (fun y => ?_) F
      rw [hat y, pos_put hd, ← put_put _ d 0 y, he, put_put]
    · refine keep at_ (fun y z hyz => he ?_) F hF
      rw [hat y, pos_put hd] at hyz
      have := congrArg (fun x => put x d 0) hyz
      simpa only [put_put] using this
  have hitn : ∀ at_ : ℤ → I3, (∀ y, at_ y = put n d y) → ∀ F, P (body g d F at_) := by
    intro at_ hat F
    refine hit at_ (fun y => ?_) F
    rw [hat]
    funext e
    by_cases he : e = d
    · subst he; rw [pos_act hd]
    · unfold pos ix
      rw [put_ne _ _ he]
      split_ifs with hi
      · exact (hn e he hi).symm
      · rfl
  unfold conducting_wall at h
  split_ifs at h with h1 h2
  · subst h1
    simp only [Option.some.injEq] at h
    rw [← h]
    unfold wallLoop
    have kp : ∀ a b (F : PF K), P F → P (body g 1 F fun y => if (2 : Fin 3) = 2 then ![a, y, b] else ![a, b, y]) :=
      fun a b F hF => both _ (fun y => by funext e; fin_cases e <;> simp [put]) F hF
    refine foldl_hit _ _ P (fun b _ F hF => ?_) (n 2) (mem_rng.2 (hv.2.1 rfl)) (fun F => ?_) F
    · exact foldl_keep _ _ P (fun a _ F hF => kp _ _ F hF) hF
    · refine foldl_hit _ _ P (fun a _ F hF => kp _ _ F hF) (n 0) (mem_rng.2 hv.1) (fun F => ?_) F
      exact hitn _ (fun y => by funext e; fin_cases e <;> simp [put]) F
  · subst h2
    simp only [Option.some.injEq] at h
    rw [← h]
    unfold wallLoop
    have kp : ∀ a b (F : PF K), P F → P (body g 2 F fun y => if (1 : Fin 3) = 2 then ![a, y, b] else ![a, b, y]) :=
      fun a b F hF => both _ (fun y => by funext e; fin_cases e <;> simp [put]) F hF
    refine foldl_hit _ _ P (fun b _ F hF => ?_) (n 1) (mem_rng.2 (hv.2.2 rfl)) (fun F => ?_) F
    · exact foldl_keep _ _ P (fun a _ F hF => kp _ _ F hF) hF
    · refine foldl_hit _ _ P (fun a _ F hF => kp _ _ F hF) (n 0) (mem_rng.2 hv.1) (fun F => ?_) F
      exact hitn _ (fun y => by funext e; fin_cases e <;> simp [put]) F

/-- component `mb + m` at index `s` of the column is `sg` times the one at `t` -/
def Img (mb : ℕ) (m d : Fin 3) (n : I3) (s t : ℤ) (sg : K) (F : PF K) : Prop :=
  F (mb + (m : ℕ), put n d s) = sg * F (mb + (m : ℕ), put n d t)

theorem comp_ne {mb : ℕ} {m m' : Fin 3} (h : m ≠ m') (x y : I3) : (mb + (m : ℕ), x) ≠ (mb + (m' : ℕ), y) := by
  intro he; rw [Prod.mk.injEq] at he; exact h (by ext; omega)

/-- a loop over the components that only touches the component it is at -/
theorem comps_img {mb : ℕ} {m d : Fin 3} {n : I3} {s t : ℤ} {sg : K} (f : PF K → Fin 3 → PF K)
    (hf : ∀ F (m' : Fin 3) k, k.1 ≠ mb + (m' : ℕ) → f F m' k = F k) (hm : ∀ F, Img mb m d n s t sg (f F m)) (F : PF K) :
    Img mb m d n s t sg ((List.finRange 3).foldl f F) := by
  refine foldl_hit _ _ (Img mb m d n s t sg) (fun m' _ F hF => ?_) m (List.mem_finRange m) hm F
  by_cases h : m = m'
  · subst h; exact hm F
  · unfold Img at hF ⊢
    rw [hf, hf, hF] <;> (simp only; intro he; apply h; ext; omega)

theorem comps_keep {mb : ℕ} {m d : Fin 3} {n : I3} {s t : ℤ} {sg : K} (f : PF K → Fin 3 → PF K) (at_ : ℤ → I3) (g : GridP K)
    (ha : ∀ y z, pos g.inv (at_ y) ≠ put n d z)
    (hf : ∀ F (m' : Fin 3) k, (∀ y, k.2 ≠ pos g.inv (at_ y)) → f F m' k = F k) (F : PF K) (hF : Img mb m d n s t sg F) :
    Img mb m d n s t sg ((List.finRange 3).foldl f F) := by
  refine foldl_keep _ _ (Img mb m d n s t sg) (fun m' _ F hF => ?_) hF
  unfold Img at hF ⊢
  rw [hf _ _ _ (fun y => (ha y _).symm), hf _ _ _ (fun y => (ha y _).symm), hF]

theorem wr_comp {g : GridP K} {F : PF K} {m : ℕ} {n : I3} {v : K} {k : ℕ × I3} (h : k.1 ≠ m) : wr g F m n v k = F k :=
  wr_other (by intro he; exact h (by rw [he]))

theorem wr_col {g : GridP K} {F : PF K} {m : ℕ} {n : I3} {v : K} {k : ℕ × I3} (h : k.2 ≠ pos g.inv n) : wr g F m n v k = F k :=
  wr_other (by intro he; exact h (by rw [he]))

theorem wallE_lo_img (g : GridP K) (d m : Fin 3) (n : I3) (at_ : ℤ → I3) (F : PF K) :
    ((∀ y, pos g.inv (at_ y) = put n d y) →
      Img EX m d n (-1) (if m = d then 0 else 1) (if m = d then -1 else 1) (wallE_lo g d F at_)) ∧
    ((∀ y z, pos g.inv (at_ y) ≠ put n d z) → Img EX m d n (-1) (if m = d then 0 else 1) (if m = d then -1 else 1) F →
      Img EX m d n (-1) (if m = d then 0 else 1) (if m = d then -1 else 1) (wallE_lo g d F at_)) := by
  constructor
  · intro ha
    unfold wallE_lo
    refine comps_img _ (fun F m' k hk => ?_) (fun F => ?_) F
    · try dsimp only
      split_ifs
      · rw [wr_comp hk]
      · rw [wr_comp hk, wr_comp hk]
    · unfold Img
      try dsimp only
      split_ifs with h <;> simp [wr, rd, Function.update_apply, ha, put_inj]
  · intro ha hF
    unfold wallE_lo
    refine comps_keep _ at_ g ha (fun F m' k hk => ?_) F hF
    try dsimp only
    split_ifs
    · rw [wr_col (hk _)]
    · rw [wr_col (hk _), wr_col (hk _)]

theorem wallE_hi_img (g : GridP K) (d m : Fin 3) (n : I3) (at_ : ℤ → I3) (F : PF K) :
    ((∀ y, pos g.inv (at_ y) = put n d y) →
      Img EX m d n (if m = d then g.ldims d else g.ldims d + 1) (g.ldims d - 1) (if m = d then -1 else 1) (wallE_hi g d F at_)) ∧
    ((∀ y z, pos g.inv (at_ y) ≠ put n d z) →
      Img EX m d n (if m = d then g.ldims d else g.ldims d + 1) (g.ldims d - 1) (if m = d then -1 else 1) F →
      Img EX m d n (if m = d then g.ldims d else g.ldims d + 1) (g.ldims d - 1) (if m = d then -1 else 1) (wallE_hi g d F at_)) := by
  have e1 : g.ldims d - 1 ≠ g.ldims d := by omega
  have e2 : g.ldims d - 1 ≠ g.ldims d + 1 := by omega
  constructor
  · intro ha
    unfold wallE_hi
    refine comps_img _ (fun F m' k hk => ?_) (fun F => ?_) F
    · try dsimp only
      split_ifs
      · rw [wr_comp hk]
      · rw [wr_comp hk, wr_comp hk]
    · unfold Img
      try dsimp only
      split_ifs with h <;> simp [wr, rd, Function.update_apply, ha, put_inj, e1, e2]
  · intro ha hF
    unfold wallE_hi
    refine comps_keep _ at_ g ha (fun F m' k hk => ?_) F hF
    try dsimp only
    split_ifs
    · rw [wr_col (hk _)]
    · rw [wr_col (hk _), wr_col (hk _)]

theorem wallH_lo_img (g : GridP K) (d m : Fin 3) (n : I3) (at_ : ℤ → I3) (F : PF K) :
    ((∀ y, pos g.inv (at_ y) = put n d y) →
      Img HX m d n (-1) (if m = d then 1 else 0) (if m = d then 1 else -1) (wallH_lo g d F at_)) ∧
    ((∀ y z, pos g.inv (at_ y) ≠ put n d z) → Img HX m d n (-1) (if m = d then 1 else 0) (if m = d then 1 else -1) F →
      Img HX m d n (-1) (if m = d then 1 else 0) (if m = d then 1 else -1) (wallH_lo g d F at_)) := by
  constructor
  · intro ha
    unfold wallH_lo
    refine comps_img _ (fun F m' k hk => ?_) (fun F => ?_) F
    · try dsimp only
      split_ifs <;> rw [wr_comp hk]
    · unfold Img
      try dsimp only
      split_ifs with h <;> simp [wr, rd, Function.update_apply, ha, put_inj]
  · intro ha hF
    unfold wallH_lo
    refine comps_keep _ at_ g ha (fun F m' k hk => ?_) F hF
    try dsimp only
    split_ifs <;> rw [wr_col (hk _)]

theorem wallH_hi_img (g : GridP K) (d m : Fin 3) (n : I3) (at_ : ℤ → I3) (F : PF K) :
    ((∀ y, pos g.inv (at_ y) = put n d y) →
      Img HX m d n (if m = d then g.ldims d + 1 else g.ldims d) (g.ldims d - 1) (if m = d then 1 else -1) (wallH_hi g d F at_)) ∧
    ((∀ y z, pos g.inv (at_ y) ≠ put n d z) →
      Img HX m d n (if m = d then g.ldims d + 1 else g.ldims d) (g.ldims d - 1) (if m = d then 1 else -1) F →
      Img HX m d n (if m = d then g.ldims d + 1 else g.ldims d) (g.ldims d - 1) (if m = d then 1 else -1) (wallH_hi g d F at_)) := by
  have e1 : g.ldims d - 1 ≠ g.ldims d := by omega
  have e2 : g.ldims d - 1 ≠ g.ldims d + 1 := by omega
  constructor
  · intro ha
    unfold wallH_hi
    refine comps_img _ (fun F m' k hk => ?_) (fun F => ?_) F
    · try dsimp only
      split_ifs <;> rw [wr_comp hk]
    · unfold Img
      try dsimp only
      split_ifs with h <;> simp [wr, rd, Function.update_apply, ha, put_inj, e1, e2]
  · intro ha hF
    unfold wallH_hi
    refine comps_keep _ at_ g ha (fun F m' k hk => ?_) F hF
    try dsimp only
    split_ifs <;> rw [wr_col (hk _)]

/-! ### the other sides do not interfere -/

theorem sideE_lo_frame {c : Cfg} {g : GridP K} {b : BndP K} (h : FitsB c g b) (r p : ℕ) (d : Fin 3) (F F' : PF K)
    (hF : side1 (atLo c r p) b.fld_lo (conducting_wall c g (-2) wallE_lo)
      (fun d F => some (set_lower_ghosts c g d EX b.background_e F)) d F = some F')
    (k : ℕ × I3) (hk : atLo c r p d = true → b.fld_lo d ≠ .periodic → 0 < k.2 d) : F' k = F k := by
  unfold side1 at hF
  split_ifs at hF with ha
  · cases hb : b.fld_lo d with
    | periodic => rw [hb] at hF; simp only [Option.some.injEq] at hF; rw [← hF]
    | conducting =>
      rw [hb] at hF
      have hb' : b.fld_lo d ≠ .periodic := by rw [hb]; decide
      have := hk ha hb'
      exact conducting_frame c g (-2) _ d (TElo d) (wallE_lo_frame g d (h.lo_dir hb').1) hF k
        (by rintro ⟨m, -, ht⟩; omega)
    | «open» =>
      rw [hb] at hF
      have hb' : b.fld_lo d ≠ .periodic := by rw [hb]; decide
      have := hk ha hb'
      simp only [Option.some.injEq] at hF
      rw [← hF, set_lower_frame c g d (h.lo_dir hb').1 EX _ F k]
      rintro ⟨m, -, ht⟩; omega
    | other => rw [hb] at hF; simp at hF
  · simp only [Option.some.injEq] at hF; rw [← hF]

theorem sideE_hi_frame {c : Cfg} {g : GridP K} {b : BndP K} (h : FitsB c g b) (r p : ℕ) (d : Fin 3) (F F' : PF K)
    (hF : side1 (atHi c r p) b.fld_hi (conducting_wall c g (-2) wallE_hi)
      (fun d F => some (set_upper_ghosts c g d EX b.background_e F)) d F = some F')
    (k : ℕ × I3) (hk : atHi c r p d = true → b.fld_hi d ≠ .periodic → k.2 d < g.ldims d) : F' k = F k := by
  unfold side1 at hF
  split_ifs at hF with ha
  · cases hb : b.fld_hi d with
    | periodic => rw [hb] at hF; simp only [Option.some.injEq] at hF; rw [← hF]
    | conducting =>
      rw [hb] at hF
      have hb' : b.fld_hi d ≠ .periodic := by rw [hb]; decide
      have := hk ha hb'
      exact conducting_frame c g (-2) _ d (Thi g EX d) (wallE_hi_frame g d (h.hi_dir hb').1) hF k
        (by rintro ⟨m, -, ht⟩; omega)
    | «open» =>
      rw [hb] at hF
      have hb' : b.fld_hi d ≠ .periodic := by rw [hb]; decide
      have := hk ha hb'
      simp only [Option.some.injEq] at hF
      rw [← hF, set_upper_frame c g d (h.hi_dir hb').1 EX _ F k]
      rintro ⟨m, -, ht⟩; omega
    | other => rw [hb] at hF; simp at hF
  · simp only [Option.some.injEq] at hF; rw [← hF]

theorem sideH_lo_frame {c : Cfg} {g : GridP K} {b : BndP K} (h : FitsB c g b) (r p : ℕ) (d : Fin 3) (F F' : PF K)
    (hF : side1 (atLo c r p) b.fld_lo (conducting_wall c g (-1) wallH_lo)
      (fun d F => some (radiative_H_lo c g b p d F)) d F = some F')
    (k : ℕ × I3) (hk : atLo c r p d = true → b.fld_lo d ≠ .periodic → 0 ≤ k.2 d) : F' k = F k := by
  unfold side1 at hF
  split_ifs at hF with ha
  · cases hb : b.fld_lo d with
    | periodic => rw [hb] at hF; simp only [Option.some.injEq] at hF; rw [← hF]
    | conducting =>
      rw [hb] at hF
      have hb' : b.fld_lo d ≠ .periodic := by rw [hb]; decide
      have := hk ha hb'
      exact conducting_frame c g (-1) _ d (Tlo HX d) (wallH_lo_frame g d (h.lo_dir hb').1) hF k
        (by rintro ⟨m, -, ht⟩; omega)
    | «open» =>
      rw [hb] at hF
      have hb' : b.fld_lo d ≠ .periodic := by rw [hb]; decide
      have := hk ha hb'
      simp only [Option.some.injEq] at hF
      rw [← hF, radiative_lo_frame c g b p d (h.lo_dir hb').1 F k]
      rintro ⟨m, -, ht⟩; omega
    | other => rw [hb] at hF; simp at hF
  · simp only [Option.some.injEq] at hF; rw [← hF]

theorem sideH_hi_frame {c : Cfg} {g : GridP K} {b : BndP K} (h : FitsB c g b) (r p : ℕ) (d : Fin 3) (F F' : PF K)
    (hF : side1 (atHi c r p) b.fld_hi (conducting_wall c g (-2) wallH_hi)
      (fun d F => some (radiative_H_hi c g b p d F)) d F = some F')
    (k : ℕ × I3) (hk : atHi c r p d = true → b.fld_hi d ≠ .periodic → k.2 d < g.ldims d) : F' k = F k := by
  unfold side1 at hF
  split_ifs at hF with ha
  · cases hb : b.fld_hi d with
    | periodic => rw [hb] at hF; simp only [Option.some.injEq] at hF; rw [← hF]
    | conducting =>
      rw [hb] at hF
      have hb' : b.fld_hi d ≠ .periodic := by rw [hb]; decide
      have := hk ha hb'
      exact conducting_frame c g (-2) _ d (Thi g HX d) (wallH_hi_frame g d (h.hi_dir hb').1) hF k
        (by rintro ⟨m, -, ht⟩; omega)
    | «open» =>
      rw [hb] at hF
      have hb' : b.fld_hi d ≠ .periodic := by rw [hb]; decide
      have := hk ha hb'
      simp only [Option.some.injEq] at hF
      rw [← hF, radiative_hi_frame c g b p d (h.hi_dir hb').1 F k]
      rintro ⟨m, -, ht⟩; omega
    | other => rw [hb] at hF; simp at hF
  · simp only [Option.some.injEq] at hF; rw [← hF]

theorem Img.frame {mb : ℕ} {m d : Fin 3} {n : I3} {s t : ℤ} {sg : K} {F F' : PF K} (hF : Img mb m d n s t sg F)
    (hs : F' (mb + (m : ℕ), put n d s) = F (mb + (m : ℕ), put n d s))
    (ht : F' (mb + (m : ℕ), put n d t) = F (mb + (m : ℕ), put n d t)) : Img mb m d n s t sg F' := by
  unfold Img at hF ⊢; rw [hs, ht, hF]

/-- the transverse indices are those of owned cells away from the other boundaries -/
structure Across (c : Cfg) (g : GridP K) (r p : ℕ) (d : Fin 3) (n : I3) : Prop where
  own : ∀ e, e ≠ d → 0 ≤ n e ∧ n e < c.ldims e
  mid : Mid c g d fun e => c.off r p e + n e

theorem Across.lo {c : Cfg} {g : GridP K} {b : BndP K} (h : FitsB c g b) {r p : ℕ} {d : Fin 3} {n : I3} (hn : Across c g r p d n)
    {e : Fin 3} (he : e ≠ d) (ha : atLo c r p e = true) (hb : b.fld_lo e ≠ .periodic) (y : ℤ) : 0 < put n d y e := by
  rw [put_ne _ _ he]
  have := hn.mid e he (h.lo_dir hb).1 (h.lo_dir hb).2
  rw [atLo_iff] at ha
  simp only at this
  omega

theorem Across.hi {c : Cfg} {g : GridP K} {b : BndP K} (h : FitsB c g b) {r p : ℕ} {d : Fin 3} {n : I3} (hn : Across c g r p d n)
    {e : Fin 3} (he : e ≠ d) (y : ℤ) : put n d y e < g.ldims e := by
  rw [put_ne _ _ he, ← h.ldims]
  exact (hn.own e he).2

theorem Across.visited {c : Cfg} {g : GridP K} {b : BndP K} (h : FitsB c g b) {r p : ℕ} {d : Fin 3} {n : I3}
    (hn : Across c g r p d n) (hd : d = 1 ∨ d = 2) (lo1 : ℤ) (hl : lo1 ≤ 0) : Visited c g lo1 d n := by
  have hL := h.ldims
  have b0 := (h.ok.ibn 0).1
  rcases hd with rfl | rfl
  · have h0 := hn.own 0 (by decide); have h2 := hn.own 2 (by decide)
    refine ⟨?_, fun _ => ?_, fun hd => absurd hd (by decide)⟩
    · simp only [ibOf, ieOf, ← hL]; omega
    · rw [← hL]; omega
  · have h0 := hn.own 0 (by decide); have h2 := hn.own 1 (by decide)
    refine ⟨?_, fun hd => absurd hd (by decide), fun _ => ?_⟩
    · simp only [ibOf, ieOf, ← hL]; omega
    · rw [← hL]; omega

theorem Across.act {c : Cfg} {g : GridP K} {b : BndP K} (h : FitsB c g b) {r p : ℕ} {d : Fin 3} {n : I3}
    (hn : Across c g r p d n) (e : Fin 3) (he : e ≠ d) (hi : g.inv e = true) : n e = 0 := by
  have := hn.own e he
  rw [h.ldims, (h.inv e hi).1] at this
  omega

theorem wall_dir {c : Cfg} {g : GridP K} {lo1 : ℤ} {body : GridP K → Fin 3 → PF K → (ℤ → I3) → PF K} {d : Fin 3} {F F' : PF K}
    (h : conducting_wall c g lo1 body d F = some F') : d = 1 ∨ d = 2 := by
  unfold conducting_wall at h
  split_ifs at h with h1 h2
  · exact .inl h1
  · exact .inr h2

theorem two_le {c : Cfg} {g : GridP K} {b : BndP K} (h : FitsB c g b) {d : Fin 3} (hd : g.inv d = false) : 2 ≤ g.ldims d := by
  have := (h.act d hd).1
  have := (h.ok.ibn d).2
  rw [h.ldims] at this
  omega

theorem fillE_img_lo {c : Cfg} {g : GridP K} {b : BndP K} (h : FitsB c g b) {r p : ℕ} {F F' : PF K}
    (hF : fillE c g b r p F = some F') {d : Fin 3} (ha : atLo c r p d = true) (hb : b.fld_lo d = .conducting)
    {n : I3} (hn : Across c g r p d n) (m : Fin 3) :
    Img EX m d n (-1) (if m = d then 0 else 1) (if m = d then -1 else 1) F' := by
  have hb' : b.fld_lo d ≠ .periodic := by rw [hb]; decide
  have hd := (h.lo_dir hb').1
  have h2 := two_le h hd
  unfold fillE at hF
  simp only [bind, Option.bind_eq_some_iff] at hF
  obtain ⟨F1, s1, s2⟩ := hF
  refine sides_keep (Img EX m d n _ _ _) (fun d' A A' hA h0 => ?_) s2 ?_
  · refine h0.frame (sideE_hi_frame h r p d' A A' hA _ fun _ _ => ?_) (sideE_hi_frame h r p d' A A' hA _ fun _ _ => ?_) <;>
    · by_cases hd' : d' = d
      · subst hd'; simp only [put_self]; first | omega | (split_ifs <;> omega)
      · exact hn.hi h hd' _
  · refine sides_hit (Img EX m d n _ _ _) d (fun d' A A' hd' hA h0 => ?_) (fun A A' hA => ?_) s1
    · exact h0.frame (sideE_lo_frame h r p d' A A' hA _ fun q1 q2 => hn.lo h hd' q1 q2 _)
        (sideE_lo_frame h r p d' A A' hA _ fun q1 q2 => hn.lo h hd' q1 q2 _)
    · unfold side1 at hA
      rw [if_pos ha, hb] at hA
      exact conducting_col c g (-2) _ d hd (Img EX m d n _ _ _) (hn.act h) (hn.visited h (wall_dir hA) _ (by omega))
        (fun at_ hat F => (wallE_lo_img g d m n at_ F).1 hat) (fun at_ hat F => (wallE_lo_img g d m n at_ F).2 hat) hA

theorem fillE_img_hi {c : Cfg} {g : GridP K} {b : BndP K} (h : FitsB c g b) {r p : ℕ} {F F' : PF K}
    (hF : fillE c g b r p F = some F') {d : Fin 3} (ha : atHi c r p d = true) (hb : b.fld_hi d = .conducting)
    {n : I3} (hn : Across c g r p d n) (m : Fin 3) :
    Img EX m d n (if m = d then g.ldims d else g.ldims d + 1) (g.ldims d - 1) (if m = d then -1 else 1) F' := by
  have hb' : b.fld_hi d ≠ .periodic := by rw [hb]; decide
  have hd := (h.hi_dir hb').1
  unfold fillE at hF
  simp only [bind, Option.bind_eq_some_iff] at hF
  obtain ⟨F1, s1, s2⟩ := hF
  refine sides_hit (Img EX m d n _ _ _) d (fun d' A A' hd' hA h0 => ?_) (fun A A' hA => ?_) s2
  · exact h0.frame (sideE_hi_frame h r p d' A A' hA _ fun _ _ => hn.hi h hd' _)
      (sideE_hi_frame h r p d' A A' hA _ fun _ _ => hn.hi h hd' _)
  · unfold side1 at hA
    rw [if_pos ha, hb] at hA
    exact conducting_col c g (-2) _ d hd (Img EX m d n _ _ _) (hn.act h) (hn.visited h (wall_dir hA) _ (by omega))
      (fun at_ hat F => (wallE_hi_img g d m n at_ F).1 hat) (fun at_ hat F => (wallE_hi_img g d m n at_ F).2 hat) hA

theorem fillH_img_lo {c : Cfg} {g : GridP K} {b : BndP K} (h : FitsB c g b) {r p : ℕ} {F F' : PF K}
    (hF : fillH c g b r p F = some F') {d : Fin 3} (ha : atLo c r p d = true) (hb : b.fld_lo d = .conducting)
    {n : I3} (hn : Across c g r p d n) (m : Fin 3) :
    Img HX m d n (-1) (if m = d then 1 else 0) (if m = d then 1 else -1) F' := by
  have hb' : b.fld_lo d ≠ .periodic := by rw [hb]; decide
  have hd := (h.lo_dir hb').1
  have h2 := two_le h hd
  unfold fillH at hF
  simp only [bind, Option.bind_eq_some_iff] at hF
  obtain ⟨F1, s1, s2⟩ := hF
  refine sides_keep (Img HX m d n _ _ _) (fun d' A A' hA h0 => ?_) s2 ?_
  · refine h0.frame (sideH_hi_frame h r p d' A A' hA _ fun _ _ => ?_) (sideH_hi_frame h r p d' A A' hA _ fun _ _ => ?_) <;>
    · by_cases hd' : d' = d
      · subst hd'; simp only [put_self]; first | omega | (split_ifs <;> omega)
      · exact hn.hi h hd' _
  · refine sides_hit (Img HX m d n _ _ _) d (fun d' A A' hd' hA h0 => ?_) (fun A A' hA => ?_) s1
    · exact h0.frame (sideH_lo_frame h r p d' A A' hA _ fun q1 q2 => (hn.lo h hd' q1 q2 _).le)
        (sideH_lo_frame h r p d' A A' hA _ fun q1 q2 => (hn.lo h hd' q1 q2 _).le)
    · unfold side1 at hA
      rw [if_pos ha, hb] at hA
      exact conducting_col c g (-1) _ d hd (Img HX m d n _ _ _) (hn.act h) (hn.visited h (wall_dir hA) _ (by omega))
        (fun at_ hat F => (wallH_lo_img g d m n at_ F).1 hat) (fun at_ hat F => (wallH_lo_img g d m n at_ F).2 hat) hA

theorem fillH_img_hi {c : Cfg} {g : GridP K} {b : BndP K} (h : FitsB c g b) {r p : ℕ} {F F' : PF K}
    (hF : fillH c g b r p F = some F') {d : Fin 3} (ha : atHi c r p d = true) (hb : b.fld_hi d = .conducting)
    {n : I3} (hn : Across c g r p d n) (m : Fin 3) :
    Img HX m d n (if m = d then g.ldims d + 1 else g.ldims d) (g.ldims d - 1) (if m = d then 1 else -1) F' := by
  have hb' : b.fld_hi d ≠ .periodic := by rw [hb]; decide
  have hd := (h.hi_dir hb').1
  unfold fillH at hF
  simp only [bind, Option.bind_eq_some_iff] at hF
  obtain ⟨F1, s1, s2⟩ := hF
  refine sides_hit (Img HX m d n _ _ _) d (fun d' A A' hd' hA h0 => ?_) (fun A A' hA => ?_) s2
  · exact h0.frame (sideH_hi_frame h r p d' A A' hA _ fun _ _ => hn.hi h hd' _)
      (sideH_hi_frame h r p d' A A' hA _ fun _ _ => hn.hi h hd' _)
  · unfold side1 at hA
    rw [if_pos ha, hb] at hA
    exact conducting_col c g (-2) _ d hd (Img HX m d n _ _ _) (hn.act h) (hn.visited h (wall_dir hA) _ (by omega))
      (fun at_ hat F => (wallH_hi_img g d m n at_ F).1 hat) (fun at_ hat F => (wallH_hi_img g d m n at_ F).2 hat) hA

/-- the ghost exchange does not touch cells outside the domain, nor owned cells -/
theorem col_keep {c : Cfg} {g : GridP K} {b : BndP K} (h : FitsB c g b) {r p : ℕ} {d : Fin 3} {n : I3}
    (hn : Across c g r p d n) (hd : c.D.bc d = false) (y : ℤ)
    (hy : 0 ≤ y ∧ y < c.ldims d ∨ c.off r p d + y < 0 ∨ c.gdims d ≤ c.off r p d + y) :
    Interior c (put n d y) ∨ ¬ InDomain c r p (put n d y) := by
  rcases hy with hy | hy
  · left
    intro e
    by_cases he : e = d
    · subst he; rw [put_self]; exact hy
    · rw [put_ne _ _ he]; exact hn.own e he
  · right
    intro hD
    have := hD d
    rw [put_self, hd] at this
    simp only [Bool.false_eq_true, false_or] at this
    omega

/-- one step at the walls: the first ghost layer holds mirror images -/
theorem stepImage {c : Cfg} {g : GridP K} {b1 b2 : BndP K} (hb1 : FitsB c g b1) (hb2 : FitsB c g b2) {dep σ τ : Glob K}
    (hs : fieldStepB c g b1 b2 dep σ = some τ) (d : Fin 3) {r p : ℕ} (hp : c.D.Has r p) {n : I3} (hn : Across c g r p d n)
    (m : Fin 3) :
    (b1.fld_lo d = .conducting → c.off r p d = 0 →
      Img EX m d n (-1) (if m = d then 0 else 1) (if m = d then -1 else 1) (τ r p)) ∧
    (b1.fld_hi d = .conducting → c.off r p d + c.ldims d = c.gdims d →
      Img EX m d n (if m = d then c.ldims d else c.ldims d + 1) (c.ldims d - 1) (if m = d then -1 else 1) (τ r p)) ∧
    (b2.fld_lo d = .conducting → c.off r p d = 0 →
      Img HX m d n (-1) (if m = d then 1 else 0) (if m = d then 1 else -1) (τ r p)) ∧
    (b2.fld_hi d = .conducting → c.off r p d + c.ldims d = c.gdims d →
      Img HX m d n (if m = d then c.ldims d + 1 else c.ldims d) (c.ldims d - 1) (if m = d then 1 else -1) (τ r p)) := by
  unfold fieldStepB at hs
  simp only [bind, Option.bind_eq_some_iff] at hs
  obtain ⟨s1, k1, s2, k2, s3, k3, s4, k4, s5, k5, s6, k6, s7, k7, s8, k8, k9⟩ := hs
  obtain ⟨-, f7⟩ := fillAllB_spec hb1.ok hb1.c_pos EX (EX + 3) (by omega) k7
  obtain ⟨-, f9⟩ := fillAllB_spec hb2.ok hb2.c_pos HX (HX + 3) (by omega) k9
  have last : ∀ k : ℕ × I3, k.1 < 6 → τ r p k = s7 r p k := by
    intro k hk
    rw [show k = (k.1, k.2) from rfl, f9 r p hp _ _ (.inr (.inr (.inr (.inl hk)))),
      fillH_frame hb2 (bndAll_some k8 hp) _ (not_TH_E hk), pushH_other g hb2.gridOk _ _ r p _ hk]
  have hL : c.ldims d = g.ldims d := by rw [hb1.ldims]
  have tE : ∀ (y : ℤ), c.D.bc d = false → (0 ≤ y ∧ y < c.ldims d ∨ c.off r p d + y < 0 ∨ c.gdims d ≤ c.off r p d + y) →
      τ r p (EX + (m : ℕ), put n d y) = s6 r p (EX + (m : ℕ), put n d y) := by
    intro y hbc hy
    rw [last _ (by simp only [EX]; omega)]
    exact f7 r p hp _ _ ((col_keep hb1 hn hbc y hy).imp_right Or.inl)
  have tH : ∀ (y : ℤ), c.D.bc d = false → (0 ≤ y ∧ y < c.ldims d ∨ c.off r p d + y < 0 ∨ c.gdims d ≤ c.off r p d + y) →
      τ r p (HX + (m : ℕ), put n d y) = s8 r p (HX + (m : ℕ), put n d y) := by
    intro y hbc hy
    exact f9 r p hp _ _ ((col_keep hb2 hn hbc y hy).imp_right Or.inl)
  refine ⟨fun hb ha => ?_, fun hb ha => ?_, fun hb ha => ?_, fun hb ha => ?_⟩
  · obtain ⟨hd, hbc⟩ := hb1.lo_dir (d := d) (by rw [hb]; decide)
    have := two_le hb1 hd
    exact (fillE_img_lo hb1 (bndAll_some k6 hp) ((atLo_iff c r p d).2 ha) hb hn m).frame
      (tE _ hbc (by omega)) (tE _ hbc (by split_ifs <;> omega))
  · obtain ⟨hd, hbc⟩ := hb1.hi_dir (d := d) (by rw [hb]; decide)
    have := two_le hb1 hd
    rw [hL]
    exact (fillE_img_hi hb1 (bndAll_some k6 hp) ((atHi_iff c r p d).2 ha) hb hn m).frame
      (tE _ hbc (by split_ifs <;> omega)) (tE _ hbc (by omega))
  · obtain ⟨hd, hbc⟩ := hb2.lo_dir (d := d) (by rw [hb]; decide)
    have := two_le hb2 hd
    exact (fillH_img_lo hb2 (bndAll_some k8 hp) ((atLo_iff c r p d).2 ha) hb hn m).frame
      (tH _ hbc (by omega)) (tH _ hbc (by split_ifs <;> omega))
  · obtain ⟨hd, hbc⟩ := hb2.hi_dir (d := d) (by rw [hb]; decide)
    have := two_le hb2 hd
    rw [hL]
    exact (fillH_img_hi hb2 (bndAll_some k8 hp) ((atHi_iff c r p d).2 ha) hb hn m).frame
      (tH _ hbc (by split_ifs <;> omega)) (tH _ hbc (by omega))

end

end Psc.BndFields
