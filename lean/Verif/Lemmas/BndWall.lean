import Verif.Lemmas.BndRad

namespace Psc.BndFields

open Domain Fields Ddc FieldStep Spec Yee Psc.Props

section
variable {K : Type} [Field K]

theorem foldl_keep {α S : Type*} (l : List α) (f : S → α → S) (P : S → Prop) (h : ∀ a ∈ l, ∀ s, P s → P (f s a)) {s : S}
    (hs : P s) : P (l.foldl f s) := by
  induction l generalizing s with
  | nil => exact hs
  | cons a l ih => exact ih (fun a ha => h a (List.mem_cons_of_mem _ ha)) (h a List.mem_cons_self s hs)

theorem foldl_hit {α S : Type*} (l : List α) (f : S → α → S) (P : S → Prop) (h : ∀ a ∈ l, ∀ s, P s → P (f s a))
    (a : α) (ha : a ∈ l) (hit : ∀ s, P (f s a)) (s : S) : P (l.foldl f s) := by
  induction l generalizing s with
  | nil => simp at ha
  | cons a' l ih =>
    rcases List.mem_cons.1 ha with rfl | ha
    · exact foldl_keep l f P (fun a ha => h a (List.mem_cons_of_mem _ ha)) (hit s)
    · exact ih (fun a ha => h a (List.mem_cons_of_mem _ ha)) ha _

theorem conducting_keep (c : Cfg) (g : GridP K) (lo1 : ℤ) (body : GridP K → Fin 3 → PF K → (ℤ → I3) → PF K) (d : Fin 3)
    (P : PF K → Prop) (hb : ∀ at_ : ℤ → I3, (∀ y, at_ y d = y) → ∀ F, P F → P (body g d F at_))
    {F F' : PF K} (h : conducting_wall c g lo1 body d F = some F') (hF : P F) : P F' := by
  unfold conducting_wall at h
  split_ifs at h with h1 h2
  · subst h1
    simp only [Option.some.injEq] at h
    rw [← h]
    unfold wallLoop
    refine foldl_keep _ _ P (fun b _ F hF => ?_) hF
    refine foldl_keep _ _ P (fun a _ F hF => ?_) hF
    exact hb _ (fun y => by simp) F hF
  · subst h2
    simp only [Option.some.injEq] at h
    rw [← h]
    unfold wallLoop
    refine foldl_keep _ _ P (fun b _ F hF => ?_) hF
    refine foldl_keep _ _ P (fun a _ F hF => ?_) hF
    exact hb _ (fun y => by simp) F hF

/-- the transverse indices a wall loop visits -/
def Visited (c : Cfg) (g : GridP K) (lo1 : ℤ) (d : Fin 3) (n : I3) : Prop :=
  (max (-2) (ibOf c 0) ≤ n 0 ∧ n 0 < min (g.ldims 0 + 2) (ieOf c 0)) ∧
  (d = 1 → lo1 ≤ n 2 ∧ n 2 < g.ldims 2 + 2) ∧ (d = 2 → -2 ≤ n 1 ∧ n 1 < g.ldims 1 + 2)

theorem conducting_hit (c : Cfg) (g : GridP K) (lo1 : ℤ) (body : GridP K → Fin 3 → PF K → (ℤ → I3) → PF K) (d : Fin 3)
    (P : PF K → Prop) (hb : ∀ at_ : ℤ → I3, (∀ y, at_ y d = y) → ∀ F, P F → P (body g d F at_)) {n : I3}
    (hv : Visited c g lo1 d n) (hit : ∀ at_ : ℤ → I3, (∀ y, at_ y d = y) → at_ (n d) = n → ∀ F, P (body g d F at_))
    {F F' : PF K} (h : conducting_wall c g lo1 body d F = some F') : P F' := by
  unfold conducting_wall at h
  split_ifs at h with h1 h2
  · subst h1
    simp only [Option.some.injEq] at h
    rw [← h]
    unfold wallLoop
    refine foldl_hit _ _ P (fun b _ F hF => ?_) (n 2) (mem_rng.2 (hv.2.1 rfl)) (fun F => ?_) F
    · exact foldl_keep _ _ P (fun a _ F hF => hb _ (fun y => by simp) F hF) hF
    · refine foldl_hit _ _ P (fun a _ F hF => hb _ (fun y => by simp) F hF) (n 0) (mem_rng.2 hv.1) (fun F => ?_) F
      exact hit _ (fun y => by simp) (by funext e; fin_cases e <;> simp) F
  · subst h2
    simp only [Option.some.injEq] at h
    rw [← h]
    unfold wallLoop
    refine foldl_hit _ _ P (fun b _ F hF => ?_) (n 1) (mem_rng.2 (hv.2.2 rfl)) (fun F => ?_) F
    · exact foldl_keep _ _ P (fun a _ F hF => hb _ (fun y => by simp) F hF) hF
    · refine foldl_hit _ _ P (fun a _ F hF => hb _ (fun y => by simp) F hF) (n 0) (mem_rng.2 hv.1) (fun F => ?_) F
      exact hit _ (fun y => by simp) (by funext e; fin_cases e <;> simp) F

/-! ### tangential electric field on the wall -/

theorem wallE_lo_zero (g : GridP K) (d : Fin 3) (hd : g.inv d = false) (k : ℕ × I3) (hk : 0 ≤ k.2 d) (at_ : ℤ → I3)
    (ha : ∀ y, at_ y d = y) (F : PF K) (hF : F k = 0) : wallE_lo g d F at_ k = 0 := by
  unfold wallE_lo
  refine foldl_keep _ _ (fun F : PF K => F k = 0) (fun m _ F hF => ?_) hF
  have p1 : pos g.inv (at_ (-1)) d = -1 := by rw [pos_act hd, ha]
  have n1 : k ≠ (EX + (m : ℕ), pos g.inv (at_ (-1))) := by
    rintro rfl; simp only at hk; rw [p1] at hk; omega
  simp only
  split_ifs with hm
  · rw [wr_other n1]; exact hF
  · rw [wr_other n1]
    by_cases h0 : k = (EX + (m : ℕ), pos g.inv (at_ 0))
    · rw [h0, wr_same]
    · rw [wr_other h0]; exact hF

theorem wallE_lo_sets (g : GridP K) (d m : Fin 3) (hd : g.inv d = false) (hm : m ≠ d) (n : I3) (hn0 : n d = 0) (hn : Act0 g n)
    (at_ : ℤ → I3) (ha : ∀ y, at_ y d = y) (hat : at_ (n d) = n) (F : PF K) : wallE_lo g d F at_ (EX + m, n) = 0 := by
  unfold wallE_lo
  have p1 : pos g.inv (at_ (-1)) d = -1 := by rw [pos_act hd, ha]
  have p0 : pos g.inv (at_ 0) = n := by rw [hn0] at hat; rw [hat]; exact pos_eq hn
  have n1 : ∀ m' : Fin 3, (EX + (m : ℕ), n) ≠ (EX + (m' : ℕ), pos g.inv (at_ (-1))) := by
    intro m' he; rw [Prod.mk.injEq] at he; have := congrFun he.2 d; rw [p1] at this; omega
  refine foldl_hit _ _ (fun F : PF K => F (EX + (m : ℕ), n) = 0) (fun m' _ F hF => ?_) m (List.mem_finRange m) (fun F => ?_) F
  · simp only
    split_ifs with hm'
    · rw [wr_other (n1 m')]; exact hF
    · rw [wr_other (n1 m'), p0.symm]
      by_cases h0 : m = m'
      · subst h0; exact wr_same _ _ _ _ _
      · rw [wr_other (by intro he; rw [Prod.mk.injEq] at he; exact h0 (by ext; simp only [EX] at he; omega)), p0]; exact hF
  · simp only
    rw [if_neg hm, wr_other (n1 m), p0.symm, wr_same]

theorem wallE_hi_zero (g : GridP K) (d : Fin 3) (hd : g.inv d = false) (k : ℕ × I3) (hk : k.2 d ≤ g.ldims d)
    (hkd : k.1 ≠ EX + d ∨ k.2 d < g.ldims d) (at_ : ℤ → I3)
    (ha : ∀ y, at_ y d = y) (F : PF K) (hF : F k = 0) : wallE_hi g d F at_ k = 0 := by
  unfold wallE_hi
  refine foldl_keep _ _ (fun F : PF K => F k = 0) (fun m _ F hF => ?_) hF
  have p1 : pos g.inv (at_ (g.ldims d + 1)) d = g.ldims d + 1 := by rw [pos_act hd, ha]
  have p0 : pos g.inv (at_ (g.ldims d)) d = g.ldims d := by rw [pos_act hd, ha]
  have n1 : k ≠ (EX + (m : ℕ), pos g.inv (at_ (g.ldims d + 1))) := by
    rintro rfl; simp only at hk; rw [p1] at hk; omega
  simp only
  split_ifs with hm
  · rw [wr_other]
    · exact hF
    · rintro rfl
      rcases hkd with h | h
      · exact h (by simp only [hm])
      · simp only at h; rw [p0] at h; omega
  · rw [wr_other n1]
    by_cases h0 : k = (EX + (m : ℕ), pos g.inv (at_ (g.ldims d)))
    · rw [h0, wr_same]
    · rw [wr_other h0]; exact hF

theorem wallE_hi_sets (g : GridP K) (d m : Fin 3) (hd : g.inv d = false) (hm : m ≠ d) (n : I3) (hn0 : n d = g.ldims d)
    (hn : Act0 g n) (at_ : ℤ → I3) (ha : ∀ y, at_ y d = y) (hat : at_ (n d) = n) (F : PF K) :
    wallE_hi g d F at_ (EX + m, n) = 0 := by
  unfold wallE_hi
  have p1 : pos g.inv (at_ (g.ldims d + 1)) d = g.ldims d + 1 := by rw [pos_act hd, ha]
  have p0 : pos g.inv (at_ (g.ldims d)) = n := by rw [hn0] at hat; rw [hat]; exact pos_eq hn
  have n1 : ∀ m' : Fin 3, (EX + (m : ℕ), n) ≠ (EX + (m' : ℕ), pos g.inv (at_ (g.ldims d + 1))) := by
    intro m' he; rw [Prod.mk.injEq] at he; have := congrFun he.2 d; rw [p1] at this; omega
  have nm : ∀ m' : Fin 3, m ≠ m' → ∀ x y : I3, (EX + (m : ℕ), x) ≠ (EX + (m' : ℕ), y) := by
    intro m' h x y he; rw [Prod.mk.injEq] at he; exact h (by ext; simp only [EX] at he; omega)
  refine foldl_hit _ _ (fun F : PF K => F (EX + (m : ℕ), n) = 0) (fun m' _ F hF => ?_) m (List.mem_finRange m) (fun F => ?_) F
  · simp only
    split_ifs with hm'
    · rw [wr_other (nm m' (by rintro rfl; exact hm hm') _ _)]; exact hF
    · rw [wr_other (n1 m'), p0.symm]
      by_cases h0 : m = m'
      · subst h0; exact wr_same _ _ _ _ _
      · rw [wr_other (nm m' h0 _ _), p0]; exact hF
  · simp only
    rw [if_neg hm, wr_other (n1 m), p0.symm, wr_same]

/-- one side of the electric fill keeps a zero in a cell that is not below the patch -/
theorem sideE_lo_zero {c : Cfg} {g : GridP K} {b : BndP K} (h : FitsB c g b) (r p : ℕ) (d : Fin 3) (F F' : PF K)
    (hF : side1 (atLo c r p) b.fld_lo (conducting_wall c g (-2) wallE_lo)
      (fun d F => some (set_lower_ghosts c g d EX b.background_e F)) d F = some F')
    (k : ℕ × I3) (hk : atLo c r p d = true → b.fld_lo d ≠ .periodic → 0 ≤ k.2 d) (h0 : F k = 0) : F' k = 0 := by
  unfold side1 at hF
  split_ifs at hF with ha
  · cases hb : b.fld_lo d with
    | periodic => rw [hb] at hF; simp only [Option.some.injEq] at hF; rw [← hF]; exact h0
    | conducting =>
      rw [hb] at hF
      have hb' : b.fld_lo d ≠ .periodic := by rw [hb]; decide
      exact conducting_keep c g (-2) _ d (fun F : PF K => F k = 0)
        (fun at_ hat F hF => wallE_lo_zero g d (h.lo_dir hb').1 k (hk ha hb') at_ hat F hF) hF h0
    | «open» =>
      rw [hb] at hF
      have hb' : b.fld_lo d ≠ .periodic := by rw [hb]; decide
      simp only [Option.some.injEq] at hF
      rw [← hF, set_lower_frame c g d (h.lo_dir hb').1 EX _ F k]
      · exact h0
      · rintro ⟨m, -, ht⟩; have := hk ha hb'; omega
    | other => rw [hb] at hF; simp at hF
  · simp only [Option.some.injEq] at hF; rw [← hF]; exact h0

theorem sideE_hi_zero {c : Cfg} {g : GridP K} {b : BndP K} (h : FitsB c g b) (r p : ℕ) (d : Fin 3) (F F' : PF K)
    (hF : side1 (atHi c r p) b.fld_hi (conducting_wall c g (-2) wallE_hi)
      (fun d F => some (set_upper_ghosts c g d EX b.background_e F)) d F = some F')
    (k : ℕ × I3) (hk : atHi c r p d = true → b.fld_hi d ≠ .periodic → k.2 d < g.ldims d) (h0 : F k = 0) : F' k = 0 := by
  unfold side1 at hF
  split_ifs at hF with ha
  · cases hb : b.fld_hi d with
    | periodic => rw [hb] at hF; simp only [Option.some.injEq] at hF; rw [← hF]; exact h0
    | conducting =>
      rw [hb] at hF
      have hb' : b.fld_hi d ≠ .periodic := by rw [hb]; decide
      have := hk ha hb'
      exact conducting_keep c g (-2) _ d (fun F : PF K => F k = 0)
        (fun at_ hat F hF => wallE_hi_zero g d (h.hi_dir hb').1 k (by omega) (.inr this) at_ hat F hF) hF h0
    | «open» =>
      rw [hb] at hF
      have hb' : b.fld_hi d ≠ .periodic := by rw [hb]; decide
      have := hk ha hb'
      simp only [Option.some.injEq] at hF
      rw [← hF, set_upper_frame c g d (h.hi_dir hb').1 EX _ F k]
      · exact h0
      · rintro ⟨m, -, ht⟩; omega
    | other => rw [hb] at hF; simp at hF
  · simp only [Option.some.injEq] at hF; rw [← hF]; exact h0

theorem fin3_cases (d : Fin 3) : d = 0 ∨ d = 1 ∨ d = 2 := by revert d; decide

/-- three sides in a row keep a property that each of them keeps, and establish it if one of them does -/
theorem sides_hit {at_ : Fin 3 → Bool} {bc : Fin 3 → FldBC} {wall open_ : Fin 3 → PF K → Option (PF K)} (P : PF K → Prop)
    (d : Fin 3) (hk : ∀ d' F F', d' ≠ d → side1 at_ bc wall open_ d' F = some F' → P F → P F')
    (hd : ∀ F F', side1 at_ bc wall open_ d F = some F' → P F')
    {F F' : PF K} (h : sides at_ bc wall open_ F = some F') : P F' := by
  rw [sides_eq] at h
  simp only [Option.bind_eq_some_iff] at h
  obtain ⟨F1, h1, F2, h2, h3⟩ := h
  have hd3 : d = 0 ∨ d = 1 ∨ d = 2 := fin3_cases d
  rcases hd3 with rfl | rfl | rfl
  · exact hk _ _ _ (by decide) h3 (hk _ _ _ (by decide) h2 (hd _ _ h1))
  · exact hk _ _ _ (by decide) h3 (hd _ _ h2)
  · exact hd _ _ h3

theorem sides_keep {at_ : Fin 3 → Bool} {bc : Fin 3 → FldBC} {wall open_ : Fin 3 → PF K → Option (PF K)} (P : PF K → Prop)
    (hk : ∀ d' F F', side1 at_ bc wall open_ d' F = some F' → P F → P F')
    {F F' : PF K} (h : sides at_ bc wall open_ F = some F') (hF : P F) : P F' := by
  rw [sides_eq] at h
  simp only [Option.bind_eq_some_iff] at h
  obtain ⟨F1, h1, F2, h2, h3⟩ := h
  exact hk _ _ _ h3 (hk _ _ _ h2 (hk _ _ _ h1 hF))

theorem fillE_lo {c : Cfg} {g : GridP K} {b : BndP K} (h : FitsB c g b) {r p : ℕ} {F F' : PF K}
    (hF : fillE c g b r p F = some F') {d m : Fin 3} (hm : m ≠ d) (ha : atLo c r p d = true) (hb : b.fld_lo d = .conducting)
    {n : I3} (hn : Interior c n) (hn0 : n d = 0) : F' (EX + m, n) = 0 := by
  have hb' : b.fld_lo d ≠ .periodic := by rw [hb]; decide
  have hd := (h.lo_dir hb').1
  have hL := h.ldims
  unfold fillE at hF
  simp only [bind, Option.bind_eq_some_iff] at hF
  obtain ⟨F1, s1, s2⟩ := hF
  refine sides_keep (fun F : PF K => F (EX + (m : ℕ), n) = 0) (fun d' A A' hA h0 => ?_) s2 ?_
  · exact sideE_hi_zero h r p d' A A' hA _ (fun _ _ => by have := hn d'; rw [hL] at this; exact this.2) h0
  · refine sides_hit (fun F : PF K => F (EX + (m : ℕ), n) = 0) d (fun d' A A' _ hA h0 => ?_) (fun A A' hA => ?_) s1
    · exact sideE_lo_zero h r p d' A A' hA _ (fun _ _ => (hn d').1) h0
    · unfold side1 at hA
      rw [if_pos ha, hb] at hA
      refine conducting_hit c g (-2) _ d (fun F : PF K => F (EX + (m : ℕ), n) = 0)
        (fun at_ hat F hF => wallE_lo_zero g d hd _ (hn d).1 at_ hat F hF) ?_
        (fun at_ hat hat' F => wallE_lo_sets g d m hd hm n hn0 (interior_act0 h hn) at_ hat hat' F) hA
      have h0 := hn 0; have h1 := hn 1; have h2 := hn 2
      have b0 := (h.ok.ibn 0).1
      simp only [Visited, ibOf, ieOf, ← hL]
      omega

theorem fillE_hi {c : Cfg} {g : GridP K} {b : BndP K} (h : FitsB c g b) {r p : ℕ} {F F' : PF K}
    (hF : fillE c g b r p F = some F') {d m : Fin 3} (hm : m ≠ d) (ha : atHi c r p d = true) (hb : b.fld_hi d = .conducting)
    {n : I3} (hact : Act0 g n) (hn : ∀ e, e ≠ d → 0 ≤ n e ∧ n e ≤ c.ldims e ∧ (c.D.bc e = false → c.off r p e + n e < c.gdims e))
    (hn0 : n d = c.ldims d) : F' (EX + m, n) = 0 := by
  have hb' : b.fld_hi d ≠ .periodic := by rw [hb]; decide
  have hd := (h.hi_dir hb').1
  have hL := h.ldims
  unfold fillE at hF
  simp only [bind, Option.bind_eq_some_iff] at hF
  obtain ⟨F1, s1, s2⟩ := hF
  refine sides_hit (fun F : PF K => F (EX + (m : ℕ), n) = 0) d (fun d' A A' hd' hA h0 => ?_) (fun A A' hA => ?_) s2
  · refine sideE_hi_zero h r p d' A A' hA _ (fun q1 q2 => ?_) h0
    have := (hn d' hd').2.2 (h.hi_dir q2).2
    have q3 := (atHi_iff c r p d').1 q1
    simp only [← hL]; omega
  · unfold side1 at hA
    rw [if_pos ha, hb] at hA
    refine conducting_hit c g (-2) _ d (fun F : PF K => F (EX + (m : ℕ), n) = 0)
      (fun at_ hat F hF => wallE_hi_zero g d hd _ (by simp only [← hL]; omega) (.inl ?_) at_ hat F hF) ?_
      (fun at_ hat hat' F => wallE_hi_sets g d m hd hm n (by rw [hn0, hL]) hact at_ hat hat' F) hA
    · intro he; apply hm; ext; simp only [EX] at he; omega
    · have hd0 : d ≠ 0 := by
        rintro rfl
        unfold conducting_wall at hA
        simp at hA
      have h0 := hn 0 (Ne.symm hd0)
      have b0 := (h.ok.ibn 0).1
      have a0 : g.inv 0 = true ∨ 2 ≤ c.ibn 0 := by
        cases hi : g.inv 0 with
        | true => exact .inl rfl
        | false => exact .inr (h.act 0 hi).1
      have h00 : g.inv 0 = true → n 0 = 0 ∧ c.ldims 0 = 1 := fun hi => ⟨hact 0 hi, by rw [hL]; exact (h.inv 0 hi).1⟩
      refine ⟨?_, ?_, ?_⟩
      · rw [← hL]; simp only [ibOf, ieOf]
        rcases a0 with a0 | a0
        · have := h00 a0; omega
        · omega
      · rintro rfl; have := hn 2 (by decide); rw [← hL]; omega
      · rintro rfl; have := hn 1 (by decide); rw [← hL]; omega

/-! ### the whole step -/

theorem off_range {c : Cfg} {g : GridP K} {b : BndP K} (h : FitsB c g b) {r p : ℕ} (hp : c.D.Has r p) (d : Fin 3) :
    0 ≤ c.off r p d ∧ c.off r p d + c.ldims d ≤ c.gdims d := by
  have h1 := (C25_idx3_owner c.D h.ok.valid r p hp).1 d
  have h2 := h.c_pos d
  unfold Cfg.off Cfg.gdims
  have h3 : ((c.D.idx3 r p d : ℤ) + 1) * c.ldims d ≤ (c.D.np d : ℤ) * c.ldims d :=
    mul_le_mul_of_nonneg_right (by exact_mod_cast h1) (by omega)
  have h4 : (0 : ℤ) ≤ (c.D.idx3 r p d : ℤ) * c.ldims d := mul_nonneg (by positivity) (by omega)
  rw [add_mul, one_mul] at h3
  omega

theorem stored_act0 {c : Cfg} {g : GridP K} {b : BndP K} (h : FitsB c g b) {n : I3} (hn : Stored c n) : Act0 g n := by
  intro e he
  have h1 := hn e
  obtain ⟨h2, -, h3, -⟩ := h.inv e he
  rw [h.ldims, h2, h3] at h1
  omega

/-- push, boundary condition and exchange of the electric field leave nothing along a wall -/
theorem elWall {c : Cfg} {g : GridP K} {b : BndP K} (h : FitsB c g b) {σ σ1 τ : Glob K}
    (h1 : bndAll c (fillE c g b) σ = some σ1) (h2 : fillAll c EX (EX + 3) σ1 = some τ) (d : Fin 3) :
    (b.fld_lo d = .conducting → NoTangentialLo c d τ) ∧ (b.fld_hi d = .conducting → NoTangentialHi c d τ) := by
  obtain ⟨f1, f2⟩ := fillAllB_spec h.ok h.c_pos EX (EX + 3) (by omega) h2
  constructor
  · intro hb r p hp n hn hd h0 m hm
    have hbc := (h.lo_dir (d := d) (by rw [hb]; decide)).2
    obtain ⟨G, pG, oG⟩ := exists_ownedB h.ok h.c_pos σ1 (EX + m)
    rw [f1 _ _ (by omega) (by omega) pG oG r p hp n hn hd]
    refine extend h.ok h.c_pos pG (G' := fun _ => 0) (fun _ _ _ => rfl) (fun x => x d = 0)
      (fun x y hxy hx => by rw [← wrap_np hxy hbc]; exact hx) ?_ hp hn hd h0
    intro r' p' hp' n' hn' h0'
    rw [← oG r' p' hp' n' hn']
    have ho := off_range h hp' d
    have := hn' d
    simp only at h0'
    exact fillE_lo h (bndAll_some h1 hp') hm ((atLo_iff c r' p' d).2 (by omega)) hb hn' (by omega)
  · intro hb r p hp ha n hn0 hs hn m hm
    have hbc := (h.hi_dir (d := d) (by rw [hb]; decide)).2
    rw [f2 r p hp _ _ (.inr (.inl ?_))]
    · exact fillE_hi h (bndAll_some h1 hp) hm ((atHi_iff c r p d).2 ha) hb (stored_act0 h hs) hn hn0
    · intro hd
      rcases hd d with h3 | h3
      · rw [hbc] at h3; cases h3
      · omega

theorem pushH_still {g : GridP K} (hg : GridOk g) (fac : K) {σ : Glob K} {r p : ℕ} {n : I3} (d : Fin 3)
    (h0 : ∀ m : Fin 3, m ≠ d → σ r p (EX + m, n) = 0)
    (h1 : ∀ e : Fin 3, e ≠ d → g.inv e = false → ∀ m : Fin 3, m ≠ d → σ r p (EX + m, shift n e 1) = 0) :
    pushH g fac σ r p (HX + d, n) = σ r p (HX + d, n) := by
  classical
  unfold pushH
  rw [ofFlds_H, (push_H_eq g hg fac (toFlds (σ r p))).2.2 d n, toFlds_H]
  have one : ∀ (m e : Fin 3), m ≠ d → e ≠ d → dF g.act g.dx (cv ((toFlds (σ r p)).E m)) e n = 0 := by
    intro m e hm he
    unfold dF
    cases hi : g.inv e with
    | true => simp [GridP.act, hi]
    | false => simp only [GridP.act, hi, Bool.not_false, if_true, toFlds_E]; rw [h0 m hm, h1 e he hi m hm]; simp
  split_ifs with hr
  · simp only [curlE]
    rw [one _ _ (fin3_ne d).2 (fin3_ne d).1, one _ _ (fin3_ne d).1 (fin3_ne d).2]
    ring
  · ring

theorem wallH_hi_still (g : GridP K) (d : Fin 3) (hd : g.inv d = false) (n : I3) (hn : n d = g.ldims d) (at_ : ℤ → I3)
    (ha : ∀ y, at_ y d = y) (F : PF K) : wallH_hi g d F at_ (HX + d, n) = F (HX + d, n) := by
  unfold wallH_hi
  refine foldl_keep _ _ (fun G : PF K => G (HX + (d : ℕ), n) = F (HX + (d : ℕ), n)) (fun m _ G hG => ?_) rfl
  split_ifs with hm
  · rw [wr_other]
    · exact hG
    · intro he; rw [Prod.mk.injEq] at he
      have := congrFun he.2 d
      rw [pos_act hd, ha] at this; omega
  · rw [wr_other]
    · exact hG
    · intro he; rw [Prod.mk.injEq] at he; exact hm (by ext; omega)

theorem fillH_still {c : Cfg} {g : GridP K} {b : BndP K} (h : FitsB c g b) {r p : ℕ} {F F' : PF K}
    (hF : fillH c g b r p F = some F') (d : Fin 3) (hb : b.fld_hi d = .conducting) {n : I3} (hn0 : n d = g.ldims d)
    (hn : ∀ e, e ≠ d → 0 ≤ n e ∧ n e < c.ldims e) : F' (HX + d, n) = F (HX + d, n) := by
  have hd := (h.hi_dir (d := d) (by rw [hb]; decide)).1
  have hL := h.ldims
  unfold fillH at hF
  simp only [bind, Option.bind_eq_some_iff] at hF
  obtain ⟨F1, s1, s2⟩ := hF
  refine sides_keep (fun G : PF K => G (HX + (d : ℕ), n) = F (HX + (d : ℕ), n)) (fun d' A A' hA h0 => ?_) s2 ?_
  · by_cases hdd : d' = d
    · subst hdd
      unfold side1 at hA
      split_ifs at hA with ha
      · rw [hb] at hA
        exact conducting_keep c g (-2) _ d' (fun G : PF K => G (HX + (d' : ℕ), n) = F (HX + (d' : ℕ), n))
          (fun at_ hat G hG => by rw [wallH_hi_still g d' hd n hn0 at_ hat]; exact hG) hA h0
      · simp only [Option.some.injEq] at hA; rw [← hA]; exact h0
    · rw [sideH_hi h r p d' A A' hA]
      · exact h0
      · rintro ⟨-, -, m, -, ht⟩
        have := hn d' hdd
        rw [hL] at this; simp only at ht; omega
  · refine sides_keep (fun G : PF K => G (HX + (d : ℕ), n) = F (HX + (d : ℕ), n)) (fun d' A A' hA h0 => ?_) s1 rfl
    rw [sideH_lo h r p d' A A' hA]
    · exact h0
    · rintro ⟨-, -, m, -, ht⟩
      simp only at ht
      by_cases hdd : d' = d
      · subst hdd; have := h.pos d'; omega
      · have := hn d' hdd; omega

/-- push, boundary condition and exchange leave the normal magnetic field on a wall alone -/
theorem magWall {c : Cfg} {g : GridP K} {b : BndP K} (h : FitsB c g b) {σ σ1 τ : Glob K} (fac : K)
    (h1 : bndAll c (fillH c g b) (pushH g fac σ) = some σ1) (h2 : fillAll c HX (HX + 3) σ1 = some τ) (d : Fin 3) :
    (NoTangentialLo c d σ → c.D.bc d = false → ∀ r p, c.D.Has r p → ∀ n, Interior c n → c.off r p d + n d = 0 →
      MidUp c g d (fun d => c.off r p d + n d) → τ r p (HX + d, n) = σ r p (HX + d, n)) ∧
    (NoTangentialHi c d σ → b.fld_hi d = .conducting → ∀ r p, c.D.Has r p → c.off r p d + c.ldims d = c.gdims d →
      ∀ n, n d = c.ldims d → (∀ e, e ≠ d → 0 ≤ n e ∧ n e < c.ldims e) →
      MidUp c g d (fun d => c.off r p d + n d) → τ r p (HX + d, n) = σ r p (HX + d, n)) := by
  obtain ⟨f1, f2⟩ := fillAllB_spec h.ok h.c_pos HX (HX + 3) (by omega) h2
  constructor
  · intro hw hbc r p hp n hn h0 hx
    rw [f2 r p hp _ _ (.inl hn), fillH_frame h (bndAll_some h1 hp) _ (not_TH_in (interior_inDomain h.ok hp hn)),
      pushH_still h.gridOk fac d]
    · exact fun m hm => hw r p hp n (interior_stored h.ok hn) (interior_inDomain h.ok hp hn) h0 m hm
    · intro e he hi m hm
      refine hw r p hp _ (h.shift_stored hn hi (by omega) (by omega)) (up_inDomain h.ok hp hn e (hx e he hi)) ?_ m hm
      simp only [shift]
      rw [if_neg (Ne.symm he)]; exact h0
  · intro hw hb r p hp ha n hn0 hn hx
    have hd := h.hi_dir (d := d) (by rw [hb]; decide)
    have hs : Stored c n := by
      intro e
      have b1 := h.ok.ibn e
      by_cases he : e = d
      · subst he
        have := (h.act e hd.1).1
        have := h.c_pos e
        omega
      · have := hn e he; omega
    have hout : ¬ InDomain c r p n := by
      intro hdom
      rcases hdom d with h3 | h3
      · rw [hd.2] at h3; cases h3
      · omega
    rw [f2 r p hp _ _ (.inr (.inl hout)), fillH_still h (bndAll_some h1 hp) d hb (by rw [hn0, h.ldims]) hn,
      pushH_still h.gridOk fac d]
    · refine fun m hm => hw r p hp ha n hn0 hs (fun e he => ⟨(hn e he).1, by have := hn e he; omega, fun _ => ?_⟩) m hm
      have := off_range h hp e
      have := hn e he
      omega
    · intro e he hi m hm
      have b1 := (h.act e hi).1
      refine hw r p hp ha _ ?_ ?_ ?_ m hm
      · simp only [shift]; rw [if_neg (Ne.symm he)]; exact hn0
      · intro e'
        simp only [shift]
        split_ifs with hee
        · subst hee; have := hn e' he; omega
        · exact hs e'
      · intro e' he'
        simp only [shift]
        have o := off_range h hp e'
        have := hn e' he'
        split_ifs with hee
        · subst hee
          refine ⟨by omega, by omega, fun hbc => ?_⟩
          have := hx e' he hi hbc
          simp only at this
          omega
        · refine ⟨by omega, by omega, fun hbc => by omega⟩

/-- one step at the walls -/
theorem stepWall {c : Cfg} {g : GridP K} {b1 b2 : BndP K} (hb1 : FitsB c g b1) (hb2 : FitsB c g b2) {dep σ τ : Glob K}
    (hs : fieldStepB c g b1 b2 dep σ = some τ) (d : Fin 3) :
    ((b1.fld_lo d = .conducting → NoTangentialLo c d τ) ∧ (b1.fld_hi d = .conducting → NoTangentialHi c d τ)) ∧
    (b1.fld_lo d = .conducting → NoTangentialLo c d σ → ∀ r p, c.D.Has r p → ∀ n, Interior c n → c.off r p d + n d = 0 →
      MidUp c g d (fun d => c.off r p d + n d) → τ r p (HX + d, n) = σ r p (HX + d, n)) ∧
    (b1.fld_hi d = .conducting → b2.fld_hi d = .conducting → NoTangentialHi c d σ → ∀ r p, c.D.Has r p →
      c.off r p d + c.ldims d = c.gdims d → ∀ n, n d = c.ldims d → (∀ e, e ≠ d → 0 ≤ n e ∧ n e < c.ldims e) →
      MidUp c g d (fun d => c.off r p d + n d) → τ r p (HX + d, n) = σ r p (HX + d, n)) := by
  unfold fieldStepB at hs
  simp only [bind, Option.bind_eq_some_iff] at hs
  obtain ⟨s1, k1, s2, k2, s3, k3, s4, k4, s5, k5, s6, k6, s7, k7, s8, k8, k9⟩ := hs
  have e3 := (curStep hb1 k1 k2 k3).2.2
  have eH : ∀ {b : BndP K} (_ : FitsB c g b) {s t u : Glob K}, bndAll c (fillH c g b) (pushH g (1/2) s) = some t →
      fillAll c HX (HX + 3) t = some u → ∀ r p, c.D.Has r p → ∀ k : ℕ × I3, k.1 < 6 → u r p k = s r p k := by
    intro b hb s t u i1 i2 r p hp k hk
    obtain ⟨-, f2⟩ := fillAllB_spec hb.ok hb.c_pos HX (HX + 3) (by omega) i2
    rw [show k = (k.1, k.2) from rfl, f2 r p hp _ _ (.inr (.inr (.inr (.inl hk)))),
      fillH_frame hb (bndAll_some i1 hp) _ (not_TH_E hk), pushH_other g hb.gridOk _ s r p _ hk]
  have e7 : ∀ r p, c.D.Has r p → ∀ (m : Fin 3) n, s7 r p (HX + m, n) = s5 r p (HX + m, n) := by
    intro r p hp m n
    obtain ⟨-, f2⟩ := fillAllB_spec hb1.ok hb1.c_pos EX (EX + 3) (by omega) k7
    rw [f2 r p hp _ _ (.inr (.inr (.inr (.inr (by simp only [EX, HX]; omega))))),
      fillE_frame hb1 (bndAll_some k6 hp) _ (by rintro ⟨m', hm', -⟩; simp only [EX, HX] at hm'; omega),
      pushE_other g hb1.gridOk _ _ r p _ (.inr (by simp only [HX]; omega))]
  obtain ⟨w1, w2⟩ := elWall hb1 k6 k7 d
  have tlo : ∀ s : Glob K, ∀ t : Glob K, (∀ r p, c.D.Has r p → ∀ (m : Fin 3) n, t r p (EX + m, n) = s r p (EX + m, n)) →
      NoTangentialLo c d s → NoTangentialLo c d t := fun s t he hw r p hp n a1 a2 a3 m hm => by
    rw [he r p hp]; exact hw r p hp n a1 a2 a3 m hm
  have thi : ∀ s : Glob K, ∀ t : Glob K, (∀ r p, c.D.Has r p → ∀ (m : Fin 3) n, t r p (EX + m, n) = s r p (EX + m, n)) →
      NoTangentialHi c d s → NoTangentialHi c d t := fun s t he hw r p hp a1 n a2 a3 a4 m hm => by
    rw [he r p hp]; exact hw r p hp a1 n a2 a3 a4 m hm
  have last : ∀ r p, c.D.Has r p → ∀ (m : Fin 3) n, τ r p (EX + m, n) = s7 r p (EX + m, n) := fun r p hp m n =>
    eH hb2 k8 k9 r p hp _ (by simp only [EX]; omega)
  have first : ∀ r p, c.D.Has r p → ∀ (m : Fin 3) n, s3 r p (EX + m, n) = σ r p (EX + m, n) := fun r p hp m n =>
    e3 r p hp _ (by simp only [EX]; omega)
  refine ⟨⟨fun hb => tlo _ _ last (w1 hb), fun hb => thi _ _ last (w2 hb)⟩, ?_, ?_⟩
  · intro hb hw r p hp n hn h0 hx
    have hbc := (hb1.lo_dir (d := d) (by rw [hb]; decide)).2
    rw [(magWall hb2 _ k8 k9 d).1 (w1 hb) hbc r p hp n hn h0 hx, e7 r p hp d n,
      (magWall hb1 _ k4 k5 d).1 (tlo _ _ first hw) hbc r p hp n hn h0 hx, e3 r p hp _ (by simp only [HX]; omega)]
  · intro hb hb' hw r p hp ha n h0 hn hx
    rw [(magWall hb2 _ k8 k9 d).2 (w2 hb) hb' r p hp ha n h0 hn hx, e7 r p hp d n,
      (magWall hb1 _ k4 k5 d).2 (thi _ _ first hw) hb r p hp ha n h0 hn hx, e3 r p hp _ (by simp only [HX]; omega)]

end

end Psc.BndFields
