import Verif.Lemmas.BndWall

/-! The field update in a box closed by conducting walls, at every edge and face: nothing is left out at the walls. -/

namespace Psc.BndFields

open Domain Fields Ddc FieldStep Spec Yee Psc.Props

section
variable {K : Type} [Field K]

/-- directions that are not periodic have conducting walls on both sides -/
def WallsB (c : Cfg) (g : GridP K) (b : BndP K) : Prop :=
  ∀ d, c.D.bc d = false → g.inv d = false ∧ b.fld_lo d = .conducting ∧ b.fld_hi d = .conducting

/-- edges in direction `m` at the lower or upper end of the box -/
def InWallB (c : Cfg) (m : Fin 3) (x : I3) : Prop := ∃ d, d ≠ m ∧ c.D.bc d = false ∧ (x d = 0 ∨ x d = c.gdims d)

def EdgeB (c : Cfg) (g : GridP K) (m : Fin 3) (n : I3) : Prop :=
  ∀ d, 0 ≤ n d ∧ n d ≤ c.ldims d ∧ (d = m ∨ g.inv d = true → n d < c.ldims d)

/-- no electric field along the upper walls, in the patches -/
def ZeroTop (c : Cfg) (g : GridP K) (σ : Glob K) : Prop :=
  ∀ r p, c.D.Has r p → ∀ d m : Fin 3, d ≠ m → c.D.bc d = false → c.off r p d + c.ldims d = c.gdims d →
    ∀ n, EdgeB c g m n → n d = c.ldims d → σ r p (EX + m, n) = 0

/-- the same for the global field -/
def ZeroTopG (c : Cfg) (E : VF K) : Prop := ∀ d m : Fin 3, d ≠ m → c.D.bc d = false → ∀ x : I3, x d = c.gdims d → E m x = 0

/-- the patches have the magnetic field through the upper walls -/
def HoldsTop (c : Cfg) (σ : Glob K) (H : VF K) : Prop :=
  ∀ r p, c.D.Has r p → ∀ m : Fin 3, c.D.bc m = false → c.off r p m + c.ldims m = c.gdims m →
    ∀ n, (n m = c.ldims m ∧ ∀ d, d ≠ m → 0 ≤ n d ∧ n d < c.ldims d) → σ r p (HX + m, n) = H m (fun d => c.off r p d + n d)

variable {c : Cfg} {g : GridP K} {b : BndP K}

theorem interior_edge {n : I3} (hn : Interior c n) (m : Fin 3) : EdgeB c g m n := fun d =>
  ⟨(hn d).1, le_of_lt (hn d).2, fun _ => (hn d).2⟩

/-- forward differences of the electric field across its direction are right in every cell -/
theorem dF_top (h : FitsB c g b) {σ : Glob K} {E : VF K} {m : Fin 3} (hE : HoldsIn c σ (EX + m) (E m)) (hz : ZeroTop c g σ)
    (hg : ZeroTopG c E) {r p : ℕ} (hp : c.D.Has r p) {n : I3} (hn : Interior c n) {e : Fin 3} (he : e ≠ m) (C : I3 → K)
    (hC : ∀ n, C n = σ r p (EX + m, n)) :
    dF g.act g.dx C e n = dF g.act g.dx (E m) e (fun d => c.off r p d + n d) := by
  by_cases hx : g.inv e = false → c.D.bc e = false → c.off r p e + n e + 1 < c.gdims e
  · exact dF_in h hE hp hn e hx C hC
  · obtain ⟨hi, hb, hx⟩ : g.inv e = false ∧ c.D.bc e = false ∧ c.gdims e ≤ c.off r p e + n e + 1 := by
      by_contra hc; apply hx; intro a b; by_contra hd; exact hc ⟨a, b, by omega⟩
    have o := off_range h hp e
    have ne := hn e
    unfold dF
    simp only [GridP.act, hi, Bool.not_false, if_true, hC]
    rw [hE r p hp n (interior_stored h.ok hn) (interior_inDomain h.ok hp hn),
      hz r p hp e m he hb (by omega) (shift n e 1) ?_ ?_, hg e m he hb (shift (fun d => c.off r p d + n d) e 1) ?_]
    · simp only [shift, if_true]; omega
    · intro d
      simp only [shift]
      split_ifs with hd
      · subst hd
        refine ⟨by omega, by omega, fun hh => ?_⟩
        rcases hh with hh | hh
        · exact absurd hh he
        · rw [hi] at hh; cases hh
      · exact ⟨(hn d).1, le_of_lt (hn d).2, fun _ => (hn d).2⟩
    · simp only [shift, if_true]; omega

theorem pushH_all (h : FitsB c g b) (fac : K) {σ : Glob K} {E H : VF K}
    (hE : ∀ d : Fin 3, HoldsIn c σ (EX + d) (E d)) (hH : ∀ d : Fin 3, HoldsIn c σ (HX + d) (H d)) (hz : ZeroTop c g σ)
    (hg : ZeroTopG c E) {r p : ℕ} (hp : c.D.Has r p) {n : I3} (hn : Interior c n) (d : Fin 3) :
    pushH g fac σ r p (HX + d, n) = faraday g.act g.dx (fac * g.dt) E H d (fun d => c.off r p d + n d) := by
  unfold pushH
  rw [ofFlds_H, (push_H_eq g h.gridOk fac (toFlds (σ r p))).2.2 d n, if_pos (h.interior_region (by omega) (by omega) hn)]
  simp only [faraday, curlE]
  have e1 : d + 1 ≠ d + 2 := (fin3_12 d).symm
  rw [dF_top h (hE _) hz hg hp hn e1 _ (toFlds_E _ _), dF_top h (hE _) hz hg hp hn e1.symm _ (toFlds_E _ _),
    toFlds_H, hH d r p hp n (interior_stored h.ok hn) (interior_inDomain h.ok hp hn)]
  ring

theorem pushH_still' {g : GridP K} (hg : GridOk g) (fac : K) {σ : Glob K} {r p : ℕ} {n : I3} (d : Fin 3)
    (h0 : ∀ m : Fin 3, m ≠ d → σ r p (EX + m, n) = 0)
    (h1 : ∀ e : Fin 3, e ≠ d → g.inv e = false → ∀ m : Fin 3, m ≠ d → m ≠ e → σ r p (EX + m, shift n e 1) = 0) :
    pushH g fac σ r p (HX + d, n) = σ r p (HX + d, n) := by
  classical
  unfold pushH
  rw [ofFlds_H, (push_H_eq g hg fac (toFlds (σ r p))).2.2 d n, toFlds_H]
  have one : ∀ (m e : Fin 3), m ≠ d → e ≠ d → m ≠ e → dF g.act g.dx (cv ((toFlds (σ r p)).E m)) e n = 0 := by
    intro m e hm he hme
    unfold dF
    cases hi : g.inv e with
    | true => simp [GridP.act, hi]
    | false => simp only [GridP.act, hi, Bool.not_false, if_true, toFlds_E]; rw [h0 m hm, h1 e he hi m hm hme]; simp
  have e1 : d + 1 ≠ d + 2 := (fin3_12 d).symm
  split_ifs with hr
  · simp only [curlE]
    rw [one _ _ (fin3_ne d).2 (fin3_ne d).1 e1.symm, one _ _ (fin3_ne d).1 (fin3_ne d).2 e1]
    ring
  · ring

/-- the global magnetic field through a wall does not change -/
theorem faraday_top {E H : VF K} (hg : ZeroTopG c E) (fac : K) {d : Fin 3} (hb : c.D.bc d = false) {x : I3} (hx : x d = c.gdims d) :
    faraday g.act g.dx fac E H d x = H d x := by
  have one : ∀ (m e : Fin 3), m ≠ d → e ≠ d → dF g.act g.dx (E m) e x = 0 := by
    intro m e hm he
    unfold dF
    rw [hg d m hm.symm hb x hx, hg d m hm.symm hb (shift x e 1) (by simp only [shift]; rw [if_neg (Ne.symm he)]; exact hx)]
    simp
  simp only [faraday, curlE]
  rw [one _ _ (fin3_ne d).2 (fin3_ne d).1, one _ _ (fin3_ne d).1 (fin3_ne d).2]
  ring

/-- the magnetic part of the step -/
theorem magAll (h : FitsB c g b) (hW : WallsB c g b) {σ σ1 τ : Glob K} {E H : VF K} (pE : ∀ d, Periodic c (E d))
    (pH : ∀ d, Periodic c (H d)) (hE : ∀ d : Fin 3, HoldsIn c σ (EX + d) (E d)) (hH : ∀ d : Fin 3, HoldsIn c σ (HX + d) (H d))
    (hz : ZeroTop c g σ) (hg : ZeroTopG c E) (ht : HoldsTop c σ H) (fac : K)
    (h1 : bndAll c (fillH c g b) (pushH g fac σ) = some σ1) (h2 : fillAll c HX (HX + 3) σ1 = some τ) :
    (∀ d : Fin 3, HoldsIn c τ (HX + d) (faraday g.act g.dx (fac * g.dt) E H d)) ∧
      HoldsTop c τ (faraday g.act g.dx (fac * g.dt) E H) ∧
      ∀ r p, c.D.Has r p → ∀ (k : ℕ × I3), k.1 < 6 → τ r p k = σ r p k := by
  obtain ⟨f1, f2⟩ := fillAllB_spec h.ok h.c_pos HX (HX + 3) (by omega) h2
  refine ⟨fun d => f1 _ _ (by omega) (by omega) (Periodic.faraday pE pH _ _ _ d) fun r p hp n hn => ?_, ?_, ?_⟩
  · rw [fillH_frame h (bndAll_some h1 hp) _ (not_TH_in (interior_inDomain h.ok hp hn)), pushH_all h fac hE hH hz hg hp hn d]
  · intro r p hp d hb ha n ⟨hn0, hn⟩
    obtain ⟨hi, -, hc⟩ := hW d hb
    have hout : ¬ InDomain c r p n := by
      intro hdom
      rcases hdom d with h3 | h3
      · rw [hb] at h3; cases h3
      · omega
    rw [f2 r p hp _ _ (.inr (.inl hout)), fillH_still h (bndAll_some h1 hp) d hc (by rw [hn0, h.ldims]) hn,
      pushH_still' h.gridOk fac d, ht r p hp d hb ha n ⟨hn0, hn⟩, faraday_top hg _ hb]
    · omega
    · intro m hm
      refine hz r p hp d m hm.symm hb ha n (fun e => ?_) hn0
      by_cases he : e = d
      · subst he
        have := h.c_pos e
        refine ⟨by omega, by omega, fun hh => ?_⟩
        rcases hh with hh | hh
        · exact absurd hh.symm hm
        · rw [hi] at hh; cases hh
      · have := hn e he; exact ⟨by omega, by omega, fun _ => by omega⟩
    · intro e he hie m hm hme
      refine hz r p hp d m hm.symm hb ha _ (fun e' => ?_) (by simp only [shift]; rw [if_neg (Ne.symm he)]; exact hn0)
      simp only [shift]
      by_cases hd : e' = d
      · subst hd
        have := h.c_pos e'
        rw [if_neg (Ne.symm he)]
        refine ⟨by omega, by omega, fun hh => ?_⟩
        rcases hh with hh | hh
        · exact absurd hh.symm hm
        · rw [hi] at hh; cases hh
      · have := hn e' hd
        split_ifs with hee
        · subst hee
          refine ⟨by omega, by omega, fun hh => ?_⟩
          rcases hh with hh | hh
          · exact absurd hh.symm hme
          · rw [hie] at hh; cases hh
        · exact ⟨by omega, by omega, fun _ => by omega⟩
  · intro r p hp k hk
    rw [show k = (k.1, k.2) from rfl, f2 r p hp _ _ (.inr (.inr (.inr (.inl hk)))),
      fillH_frame h (bndAll_some h1 hp) _ (not_TH_E hk), pushH_other g h.gridOk fac σ r p _ hk]

/-! ### the electric part -/

/-- a side keeps a zero at the upper end of the patch, unless it is of the normal component -/
theorem sideE_hi_zero' (h : FitsB c g b) (hW : WallsB c g b) (r p : ℕ) (d : Fin 3) (F F' : PF K)
    (hF : side1 (atHi c r p) b.fld_hi (conducting_wall c g (-2) wallE_hi)
      (fun d F => some (set_upper_ghosts c g d EX b.background_e F)) d F = some F')
    (k : ℕ × I3) (hk : k.2 d ≤ g.ldims d) (hk' : k.1 ≠ EX + d ∨ k.2 d < g.ldims d) (h0 : F k = 0) : F' k = 0 := by
  unfold side1 at hF
  split_ifs at hF with ha
  · cases hb : b.fld_hi d with
    | periodic => rw [hb] at hF; simp only [Option.some.injEq] at hF; rw [← hF]; exact h0
    | conducting =>
      rw [hb] at hF
      have hb' : b.fld_hi d ≠ .periodic := by rw [hb]; decide
      exact conducting_keep c g (-2) _ d (fun F : PF K => F k = 0)
        (fun at_ hat F hF => wallE_hi_zero g d (h.hi_dir hb').1 k hk hk' at_ hat F hF) hF h0
    | «open» =>
      have hb' : b.fld_hi d ≠ .periodic := by rw [hb]; decide
      have := (hW d (h.hi_dir hb').2).2.2
      rw [hb] at this; cases this
    | other => rw [hb] at hF; simp at hF
  · simp only [Option.some.injEq] at hF; rw [← hF]; exact h0

theorem fillE_top (h : FitsB c g b) (hW : WallsB c g b) {r p : ℕ} {F F' : PF K}
    (hF : fillE c g b r p F = some F') {d m : Fin 3} (hm : d ≠ m) (hbc : c.D.bc d = false) (ha : atHi c r p d = true)
    {n : I3} (hn : EdgeB c g m n) (hn0 : n d = c.ldims d) : F' (EX + m, n) = 0 := by
  obtain ⟨hd, -, hb⟩ := hW d hbc
  have hL := h.ldims
  have hact : Act0 g n := by
    intro e he
    have h1 := hn e
    have h2 := (h.inv e he).1
    rw [← hL] at h2
    have := h1.2.2 (.inr he)
    omega
  have hne : ∀ e : Fin 3, (EX + (m : ℕ), n).1 ≠ EX + (e : ℕ) ∨ n e < g.ldims e := by
    intro e
    by_cases he : e = m
    · right; rw [← hL]; exact (hn e).2.2 (.inl he)
    · left; intro h0; apply he; ext; simp only [EX] at h0; omega
  have hle : ∀ e, n e ≤ g.ldims e := fun e => by rw [← hL]; exact (hn e).2.1
  unfold fillE at hF
  simp only [bind, Option.bind_eq_some_iff] at hF
  obtain ⟨F1, s1, s2⟩ := hF
  refine sides_hit (fun F : PF K => F (EX + (m : ℕ), n) = 0) d (fun d' A A' hd' hA h0 => ?_) (fun A A' hA => ?_) s2
  · exact sideE_hi_zero' h hW r p d' A A' hA _ (hle d') (hne d') h0
  · unfold side1 at hA
    rw [if_pos ha, hb] at hA
    refine conducting_hit c g (-2) _ d (fun F : PF K => F (EX + (m : ℕ), n) = 0)
      (fun at_ hat F hF => wallE_hi_zero g d hd _ (hle d) (hne d) at_ hat F hF) ?_
      (fun at_ hat hat' F => wallE_hi_sets g d m hd hm.symm n (by rw [hn0, hL]) hact at_ hat hat' F) hA
    have h0 := hn 0
    have b0 := (h.ok.ibn 0).1
    have a0 : g.inv 0 = true ∨ 2 ≤ c.ibn 0 := by
      cases hi : g.inv 0 with
      | true => exact .inl rfl
      | false => exact .inr (h.act 0 hi).1
    have h00 : g.inv 0 = true → n 0 = 0 ∧ c.ldims 0 = 1 := fun hi => ⟨hact 0 hi, by rw [hL]; exact (h.inv 0 hi).1⟩
    refine ⟨?_, ?_, ?_⟩
    · rw [← hL]; simp only [ibOf, ieOf]
      rcases a0 with a0 | a0
      · have := h00 a0; omega
      · omega
    · rintro rfl; have := hn 2; rw [← hL]; omega
    · rintro rfl; have := hn 1; rw [← hL]; omega

open Classical in
/-- the electric field after the step: none along the walls -/
noncomputable def wallE (c : Cfg) (E : VF K) : VF K := fun m x => if InWallB c m x then 0 else E m x

theorem wallE_periodic {E : VF K} (pE : ∀ d, Periodic c (E d)) (d : Fin 3) : Periodic c (wallE c E d) := by
  intro x y hxy
  have : InWallB c d x ↔ InWallB c d y := by
    unfold InWallB
    refine exists_congr fun e => and_congr_right fun _ => and_congr_right fun hb => ?_
    rw [wrap_np hxy hb]
  unfold wallE
  by_cases hx : InWallB c d x
  · rw [if_pos hx, if_pos (this.1 hx)]
  · rw [if_neg hx, if_neg (fun h => hx (this.2 h)), pE d x y hxy]

theorem wallE_top (E : VF K) : ZeroTopG c (wallE c E) := fun d _ hm hb _ hx => if_pos ⟨d, hm, hb, .inr hx⟩

theorem elAll (h : FitsB c g b) (hW : WallsB c g b) {σ σ1 τ : Glob K} {E H J : VF K}
    (pE : ∀ d, Periodic c (E d)) (pH : ∀ d, Periodic c (H d)) (pJ : ∀ d, Periodic c (J d))
    (hE : ∀ d : Fin 3, HoldsIn c σ (EX + d) (E d)) (hH : ∀ d : Fin 3, HoldsIn c σ (HX + d) (H d))
    (hJ : ∀ d : Fin 3, HoldsIn c σ (JXI + d) (J d)) (fac : K)
    (h1 : bndAll c (fillE c g b) (pushE g fac σ) = some σ1) (h2 : fillAll c EX (EX + 3) σ1 = some τ) :
    (∀ d : Fin 3, HoldsIn c τ (EX + d) (wallE c (ampere g.act g.dx (fac * g.dt) E H J) d)) ∧ ZeroTop c g τ ∧
      ∀ r p, c.D.Has r p → ∀ (k : ℕ × I3), k.1 < 3 ∨ 6 ≤ k.1 → τ r p k = σ r p k := by
  obtain ⟨f1, f2⟩ := fillAllB_spec h.ok h.c_pos EX (EX + 3) (by omega) h2
  refine ⟨fun d => f1 _ _ (by omega) (by omega) (wallE_periodic (Periodic.ampere pE pH pJ _ _ _) d) ?_, ?_, ?_⟩
  · intro r p hp n hn
    by_cases hx : goodE c g d (fun d => c.off r p d + n d)
    · rw [fillE_frame h (bndAll_some h1 hp), pushE_good h fac hE hH hJ hp hn d hx]
      · unfold wallE
        rw [if_neg]
        rintro ⟨e, he, hb, hw⟩
        have q1 := hx e he (hW e hb).1 hb
        have o := off_range h hp e
        have q2 := hn e
        simp only at hw q1; omega
      · rintro ⟨m, hm, e, hi, hb, ht⟩
        have hmd : m = d := by ext; simp only [EX] at hm; omega
        subst hmd
        rcases interior_inDomain h.ok hp hn e with h0 | h0
        · rw [h0] at hb; cases hb
        · simp only at ht
          rcases ht with ht | ht | ⟨ht, hme⟩
          · omega
          · omega
          · have := hx e (fun h => hme h.symm) hi hb
            simp only at this; omega
    · unfold goodE at hx
      push Not at hx
      obtain ⟨e, he, hi, hb, hx⟩ := hx
      have o := off_range h hp e
      have ne := hn e
      have hx : c.off r p e + n e < 1 := hx
      rw [fillE_lo h (bndAll_some h1 hp) he.symm ((atLo_iff c r p e).2 (by omega)) (hW e hb).2.1 hn (by omega)]
      unfold wallE
      exact (if_pos ⟨e, he, hb, .inl (show c.off r p e + n e = 0 by omega)⟩).symm
  · intro r p hp d m hm hb ha n hn hn0
    have hout : ¬ InDomain c r p n := by
      intro hdom
      rcases hdom d with h3 | h3
      · rw [hb] at h3; cases h3
      · omega
    rw [f2 r p hp _ _ (.inr (.inl hout))]
    exact fillE_top h hW (bndAll_some h1 hp) hm hb ((atHi_iff c r p d).2 ha) hn hn0
  · intro r p hp k hk
    have hk' : k.1 < EX ∨ EX + 3 ≤ k.1 := by simp only [EX]; omega
    rw [show k = (k.1, k.2) from rfl, f2 r p hp _ _ (.inr (.inr (.inr hk'))),
      fillE_frame h (bndAll_some h1 hp) _ (by rintro ⟨m, hm, -⟩; simp only [EX] at hm; have := m.2; omega),
      pushE_other g h.gridOk fac σ r p _ hk]

/-- **One step of the fields in a box with walls**: exactly the global leap-frog step. -/
theorem stepAll {b1 b2 : BndP K} (hb1 : FitsB c g b1) (hb2 : FitsB c g b2) (hW1 : WallsB c g b1) (hW2 : WallsB c g b2)
    {dep σ τ : Glob K} (hs : fieldStepB c g b1 b2 dep σ = some τ) {E H : VF K} (pE : ∀ d, Periodic c (E d))
    (pH : ∀ d, Periodic c (H d)) (hE : ∀ d : Fin 3, HoldsIn c σ (EX + d) (E d)) (hH : ∀ d : Fin 3, HoldsIn c σ (HX + d) (H d))
    (hz : ZeroTop c g σ) (hg : ZeroTopG c E) (ht : HoldsTop c σ H) (H1 E1 H2 : VF K)
    (eH1 : H1 = faraday g.act g.dx (1/2 * g.dt) E H)
    (eE1 : E1 = wallE c (ampere g.act g.dx g.dt E H1 (currentB c g b1 dep)))
    (eH2 : H2 = faraday g.act g.dx (1/2 * g.dt) E1 H1) :
    ((∀ d, Periodic c (E1 d)) ∧ (∀ d, Periodic c (H2 d)) ∧ ZeroTopG c E1) ∧
    (∀ d : Fin 3, HoldsIn c τ (EX + d) (E1 d)) ∧ (∀ d : Fin 3, HoldsIn c τ (HX + d) (H2 d)) ∧ ZeroTop c g τ ∧ HoldsTop c τ H2 := by
  unfold fieldStepB at hs
  simp only [bind, Option.bind_eq_some_iff] at hs
  obtain ⟨s1, k1, s2, k2, s3, k3, s4, k4, s5, k5, s6, k6, s7, k7, s8, k8, k9⟩ := hs
  obtain ⟨pJ, hJ, f1⟩ := curStep hb1 k1 k2 k3
  have hE3 : ∀ d : Fin 3, HoldsIn c s3 (EX + d) (E d) := fun d =>
    (hE d).congr fun r p hp n _ _ => f1 r p hp _ (by simp only [EX]; omega)
  have hH3 : ∀ d : Fin 3, HoldsIn c s3 (HX + d) (H d) := fun d =>
    (hH d).congr fun r p hp n _ _ => f1 r p hp _ (by simp only [HX]; omega)
  have hz3 : ZeroTop c g s3 := fun r p hp d m hm hb ha n hn hn0 => by
    rw [f1 r p hp _ (by simp only [EX]; omega)]; exact hz r p hp d m hm hb ha n hn hn0
  have ht3 : HoldsTop c s3 H := fun r p hp m hb ha n hn => by
    rw [f1 r p hp _ (by simp only [HX]; omega)]; exact ht r p hp m hb ha n hn
  obtain ⟨hH5, ht5, f2⟩ := magAll hb1 hW1 pE pH hE3 hH3 hz3 hg ht3 (1/2) k4 k5
  rw [← eH1] at hH5 ht5
  have pH1 : ∀ d, Periodic c (H1 d) := eH1 ▸ Periodic.faraday pE pH _ _ _
  have hE5 : ∀ d : Fin 3, HoldsIn c s5 (EX + d) (E d) := fun d =>
    (hE3 d).congr fun r p hp n _ _ => f2 r p hp _ (by simp only [EX]; omega)
  have hJ5 : ∀ d : Fin 3, HoldsIn c s5 (JXI + d) (currentB c g b1 dep d) := fun d =>
    (hJ d).congr fun r p hp n _ _ => f2 r p hp _ (by simp only [JXI]; omega)
  obtain ⟨hE7, hz7, f3⟩ := elAll hb1 hW1 pE pH1 pJ hE5 hH5 hJ5 1 k6 k7
  rw [one_mul, ← eE1] at hE7
  have pE1 : ∀ d, Periodic c (E1 d) := eE1 ▸ wallE_periodic (Periodic.ampere pE pH1 pJ _ _ _)
  have hg1 : ZeroTopG c E1 := eE1 ▸ wallE_top _
  have hH7 : ∀ d : Fin 3, HoldsIn c s7 (HX + d) (H1 d) := fun d =>
    (hH5 d).congr fun r p hp n _ _ => f3 r p hp _ (.inr (by simp only [HX]; omega))
  have ht7 : HoldsTop c s7 H1 := fun r p hp m hb ha n hn => by
    rw [f3 r p hp _ (.inr (by simp only [HX]; omega))]; exact ht5 r p hp m hb ha n hn
  obtain ⟨hH9, ht9, f4⟩ := magAll hb2 hW2 pE1 pH1 hE7 hH7 hz7 hg1 ht7 (1/2) k8 k9
  rw [← eH2] at hH9 ht9
  refine ⟨⟨pE1, eH2 ▸ Periodic.faraday pE1 pH1 _ _ _, hg1⟩,
    fun d => (hE7 d).congr fun r p hp n _ _ => f4 r p hp _ (by simp only [EX]; omega), hH9, ?_, ht9⟩
  intro r p hp d m hm hb ha n hn hn0
  rw [f4 r p hp _ (by simp only [EX]; omega)]
  exact hz7 r p hp d m hm hb ha n hn hn0

end

end Psc.BndFields
