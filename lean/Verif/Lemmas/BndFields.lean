import Verif.Spec.BndFields
import Verif.Lemmas.FieldStep

namespace Psc.BndFields

open Domain Fields Ddc FieldStep Spec Yee Psc.Props

section
variable {K : Type} [Field K]

/-! ### what loops leave alone -/

theorem foldl_frame {α C V : Type*} (l : List α) (b : (C → V) → α → (C → V)) (T : C → Prop)
    (hb : ∀ a ∈ l, ∀ F k, ¬ T k → b F a k = F k) (F : C → V) (k : C) (hk : ¬ T k) : l.foldl b F k = F k := by
  induction l generalizing F with
  | nil => rfl
  | cons a l ih =>
    rw [List.foldl_cons, ih (fun a' ha' => hb a' (List.mem_cons_of_mem _ ha')), hb a List.mem_cons_self F k hk]

theorem foldl_each {α C V : Type*} (l : List α) (b : (C → V) → α → (C → V)) (Inv : (C → V) → Prop)
    (P : α → (C → V) → Prop) (hb : ∀ a ∈ l, ∀ F, Inv F → Inv (b F a) ∧ P a (b F a))
    (hp : ∀ a ∈ l, ∀ a' ∈ l, ∀ F, Inv F → P a F → P a (b F a')) (F : C → V) (h0 : Inv F) :
    Inv (l.foldl b F) ∧ ∀ a ∈ l, P a (l.foldl b F) := by
  have gen : ∀ (l' : List α), (∀ a ∈ l', a ∈ l) → ∀ F, Inv F →
      Inv (l'.foldl b F) ∧ (∀ a ∈ l', P a (l'.foldl b F)) ∧ ∀ a ∈ l, P a F → P a (l'.foldl b F) := by
    intro l'
    induction l' with
    | nil => intro _ F h; exact ⟨h, by simp, fun _ _ h => h⟩
    | cons a l' ih =>
      intro hl F h
      have h1 := hb a (hl a List.mem_cons_self) F h
      obtain ⟨i1, i2, i3⟩ := ih (fun a ha => hl a (List.mem_cons_of_mem _ ha)) (b F a) h1.1
      refine ⟨i1, fun a' ha' => ?_, fun a' ha' hP => i3 a' ha' (hp a' ha' a (hl a List.mem_cons_self) F h hP)⟩
      rcases List.mem_cons.1 ha' with rfl | ha'
      · exact i3 a' (hl a' List.mem_cons_self) h1.2
      · exact i2 a' ha'
  exact ⟨(gen l (fun _ h => h) F h0).1, (gen l (fun _ h => h) F h0).2.1⟩

theorem wr_other {g : GridP K} {F : PF K} {m : ℕ} {n : I3} {v : K} {k : ℕ × I3} (h : k ≠ (m, pos g.inv n)) :
    wr g F m n v k = F k := Function.update_of_ne h _ _

theorem wr_same (g : GridP K) (F : PF K) (m : ℕ) (n : I3) (v : K) : wr g F m n v (m, pos g.inv n) = v :=
  Function.update_self _ _ _

theorem pos_act {inv : Fin 3 → Bool} {n : I3} {d : Fin 3} (h : inv d = false) : pos inv n d = n d := by
  simp [pos, ix, h]

theorem sides_frame {at_ : Fin 3 → Bool} {bc : Fin 3 → FldBC} {wall open_ : Fin 3 → PF K → Option (PF K)}
    (T : ℕ × I3 → Prop)
    (hw : ∀ d, at_ d = true → bc d = .conducting → ∀ F F', wall d F = some F' → ∀ k, ¬ T k → F' k = F k)
    (ho : ∀ d, at_ d = true → bc d = .open → ∀ F F', open_ d F = some F' → ∀ k, ¬ T k → F' k = F k)
    {F F' : PF K} (h : sides at_ bc wall open_ F = some F') (k : ℕ × I3) (hk : ¬ T k) : F' k = F k := by
  unfold sides at h
  generalize List.finRange 3 = l at h
  induction l generalizing F with
  | nil => simp only [List.foldlM_nil, pure, Option.some.injEq] at h; rw [h]
  | cons d l ih =>
    simp only [List.foldlM_cons, bind, Option.bind_eq_some_iff] at h
    obtain ⟨F1, h1, h2⟩ := h
    rw [ih h2]
    by_cases ha : at_ d
    · rw [if_pos ha] at h1
      cases hb : bc d with
      | periodic => rw [hb] at h1; simp only [Option.some.injEq] at h1; rw [h1]
      | conducting => rw [hb] at h1; exact hw d ha hb F F1 h1 k hk
      | «open» => rw [hb] at h1; exact ho d ha hb F F1 h1 k hk
      | other => rw [hb] at h1; simp at h1
    · rw [if_neg ha] at h1; simp only [Option.some.injEq] at h1; rw [h1]

theorem wallLoop_frame (c : Cfg) (g : GridP K) (d e : Fin 3) (hde : d = 1 ∧ e = 2 ∨ d = 2 ∧ e = 1) (lo : ℤ)
    (body : PF K → (ℤ → I3) → PF K) (T : ℕ × I3 → Prop)
    (hb : ∀ at_ : ℤ → I3, (∀ y, at_ y d = y) → ∀ F k, ¬ T k → body F at_ k = F k) (F : PF K) (k : ℕ × I3) (hk : ¬ T k) :
    wallLoop c g e lo body F k = F k := by
  unfold wallLoop
  refine foldl_frame _ _ T (fun b _ F k hk => ?_) F k hk
  refine foldl_frame _ _ T (fun a _ F k hk => ?_) F k hk
  refine hb _ (fun y => ?_) F k hk
  rcases hde with ⟨rfl, rfl⟩ | ⟨rfl, rfl⟩
  · simp
  · simp

theorem conducting_frame (c : Cfg) (g : GridP K) (lo1 : ℤ) (body : GridP K → Fin 3 → PF K → (ℤ → I3) → PF K) (d : Fin 3)
    (T : ℕ × I3 → Prop) (hb : ∀ at_ : ℤ → I3, (∀ y, at_ y d = y) → ∀ F k, ¬ T k → body g d F at_ k = F k)
    {F F' : PF K} (h : conducting_wall c g lo1 body d F = some F') (k : ℕ × I3) (hk : ¬ T k) : F' k = F k := by
  unfold conducting_wall at h
  split_ifs at h with h1 h2
  · subst h1
    simp only [Option.some.injEq] at h
    rw [← h]
    exact wallLoop_frame c g 1 2 (Or.inl ⟨rfl, rfl⟩) lo1 _ T hb F k hk
  · subst h2
    simp only [Option.some.injEq] at h
    rw [← h]
    exact wallLoop_frame c g 2 1 (Or.inr ⟨rfl, rfl⟩) (-2) _ T hb F k hk

/-- the cells the electric fill at a lower boundary may change -/
def TElo (d : Fin 3) (k : ℕ × I3) : Prop := ∃ m : Fin 3, k.1 = EX + m ∧ (k.2 d < 0 ∨ k.2 d = 0 ∧ m ≠ d)

theorem wallE_lo_frame (g : GridP K) (d : Fin 3) (hd : g.inv d = false) (at_ : ℤ → I3) (ha : ∀ y, at_ y d = y) (F : PF K)
    (k : ℕ × I3) (hk : ¬ TElo d k) : wallE_lo g d F at_ k = F k := by
  unfold wallE_lo
  refine foldl_frame _ _ (TElo d) (fun m _ F k hk => ?_) F k hk
  have p0 : pos g.inv (at_ 0) d = 0 := by rw [pos_act hd, ha]
  have p1 : pos g.inv (at_ (-1)) d = -1 := by rw [pos_act hd, ha]
  have n1 : k ≠ (EX + (m : ℕ), pos g.inv (at_ (-1))) := by
    rintro rfl; exact hk ⟨m, rfl, Or.inl (by simp only; rw [p1]; decide)⟩
  split_ifs with hm
  · exact wr_other n1
  · have n0 : k ≠ (EX + (m : ℕ), pos g.inv (at_ 0)) := by
      rintro rfl; exact hk ⟨m, rfl, Or.inr ⟨p0, hm⟩⟩
    simp only
    rw [wr_other n1, wr_other n0]

/-- the cells the fill of components `mb..` at an upper boundary may change -/
def Thi (g : GridP K) (mb : ℕ) (d : Fin 3) (k : ℕ × I3) : Prop := ∃ m : Fin 3, k.1 = mb + m ∧ g.ldims d ≤ k.2 d

/-- the cells the magnetic fill at a lower boundary may change -/
def Tlo (mb : ℕ) (d : Fin 3) (k : ℕ × I3) : Prop := ∃ m : Fin 3, k.1 = mb + m ∧ k.2 d < 0

theorem wallE_hi_frame (g : GridP K) (d : Fin 3) (hd : g.inv d = false) (at_ : ℤ → I3) (ha : ∀ y, at_ y d = y) (F : PF K)
    (k : ℕ × I3) (hk : ¬ Thi g EX d k) : wallE_hi g d F at_ k = F k := by
  unfold wallE_hi
  refine foldl_frame _ _ (Thi g EX d) (fun m _ F k hk => ?_) F k hk
  have n0 : k ≠ (EX + (m : ℕ), pos g.inv (at_ (g.ldims d))) := by
    rintro rfl; exact hk ⟨m, rfl, by simp only; rw [pos_act hd, ha]⟩
  have n1 : k ≠ (EX + (m : ℕ), pos g.inv (at_ (g.ldims d + 1))) := by
    rintro rfl; exact hk ⟨m, rfl, by simp only; rw [pos_act hd, ha]; omega⟩
  split_ifs with hm
  · exact wr_other n0
  · simp only
    rw [wr_other n1, wr_other n0]

theorem wallH_lo_frame (g : GridP K) (d : Fin 3) (hd : g.inv d = false) (at_ : ℤ → I3) (ha : ∀ y, at_ y d = y) (F : PF K)
    (k : ℕ × I3) (hk : ¬ Tlo HX d k) : wallH_lo g d F at_ k = F k := by
  unfold wallH_lo
  refine foldl_frame _ _ (Tlo HX d) (fun m _ F k hk => ?_) F k hk
  have n1 : k ≠ (HX + (m : ℕ), pos g.inv (at_ (-1))) := by
    rintro rfl; exact hk ⟨m, rfl, by simp only; rw [pos_act hd, ha]; omega⟩
  split_ifs with hm <;> exact wr_other n1

theorem wallH_hi_frame (g : GridP K) (d : Fin 3) (hd : g.inv d = false) (at_ : ℤ → I3) (ha : ∀ y, at_ y d = y) (F : PF K)
    (k : ℕ × I3) (hk : ¬ Thi g HX d k) : wallH_hi g d F at_ k = F k := by
  unfold wallH_hi
  refine foldl_frame _ _ (Thi g HX d) (fun m _ F k hk => ?_) F k hk
  have n0 : k ≠ (HX + (m : ℕ), pos g.inv (at_ (g.ldims d))) := by
    rintro rfl; exact hk ⟨m, rfl, by simp only; rw [pos_act hd, ha]⟩
  have n1 : k ≠ (HX + (m : ℕ), pos g.inv (at_ (g.ldims d + 1))) := by
    rintro rfl; exact hk ⟨m, rfl, by simp only; rw [pos_act hd, ha]; omega⟩
  split_ifs with hm
  · exact wr_other n1
  · exact wr_other n0

theorem mem_box {start stop n : I3} : n ∈ box start stop ↔ ∀ d, start d ≤ n d ∧ n d < stop d := by
  unfold box
  simp only [List.mem_flatMap, List.mem_map, mem_rng]
  constructor
  · rintro ⟨i, hi, j, hj, k, hk, rfl⟩ d
    fin_cases d
    · exact hi
    · exact hj
    · exact hk
  · intro h
    refine ⟨n 0, h 0, n 1, h 1, n 2, h 2, ?_⟩
    funext d; fin_cases d <;> rfl

theorem set_lower_frame (c : Cfg) (g : GridP K) (d : Fin 3) (hd : g.inv d = false) (mb : ℕ) (val : R3 K) (F : PF K)
    (k : ℕ × I3) (hk : ¬ Tlo mb d k) : set_lower_ghosts c g d mb val F k = F k := by
  unfold set_lower_ghosts
  refine foldl_frame _ _ (Tlo mb d) (fun m _ F k hk => ?_) F k hk
  refine foldl_frame _ _ (Tlo mb d) (fun n hn F k hk => ?_) F k hk
  apply wr_other
  rintro rfl
  have := (mem_box.1 hn d).2
  rw [Function.update_self] at this
  exact hk ⟨m, rfl, by simp only; rw [pos_act hd]; exact this⟩

theorem set_upper_frame (c : Cfg) (g : GridP K) (d : Fin 3) (hd : g.inv d = false) (mb : ℕ) (val : R3 K) (F : PF K)
    (k : ℕ × I3) (hk : ¬ Thi g mb d k) : set_upper_ghosts c g d mb val F k = F k := by
  unfold set_upper_ghosts
  rw [foldl_frame _ _ (Thi g mb d) (fun m _ F k hk => ?_) _ k hk,
    foldl_frame _ _ (Thi g mb d) (fun m _ F k hk => ?_) _ k hk]
  · refine foldl_frame _ _ (Thi g mb d) (fun n hn F k hk => ?_) F k hk
    apply wr_other
    rintro rfl
    have := (mem_box.1 hn d).1
    rw [Function.update_self] at this
    exact hk ⟨m, rfl, by simp only; rw [pos_act hd]; omega⟩
  · split_ifs
    · refine foldl_frame _ _ (Thi g mb d) (fun n hn F k hk => ?_) F k hk
      apply wr_other
      rintro rfl
      have := (mem_box.1 hn d).1
      rw [Function.update_self] at this
      exact hk ⟨m, rfl, by simp only; rw [pos_act hd]; exact this⟩
    · rfl

theorem radLo_frame (g : GridP K) (b : BndP K) (p : ℕ) (d : Fin 3) (F : PF K) (i3 : I3) (k : ℕ × I3)
    (h1 : k ≠ (HX + ((d + 1 : Fin 3) : ℕ), pos g.inv i3)) (h2 : k ≠ (HX + ((d + 2 : Fin 3) : ℕ), pos g.inv i3)) :
    radLo g b p d F i3 k = F k := by
  unfold radLo
  rw [wr_other h1, wr_other h2]

theorem radHi_frame (g : GridP K) (b : BndP K) (p : ℕ) (d : Fin 3) (F : PF K) (i3 : I3) (k : ℕ × I3)
    (h1 : k ≠ (HX + ((d + 1 : Fin 3) : ℕ), pos g.inv i3)) (h2 : k ≠ (HX + ((d + 2 : Fin 3) : ℕ), pos g.inv i3)) :
    radHi g b p d F i3 k = F k := by
  unfold radHi
  rw [wr_other h1, wr_other h2]

theorem radiative_lo_frame (c : Cfg) (g : GridP K) (b : BndP K) (p : ℕ) (d : Fin 3) (hd : g.inv d = false) (F : PF K)
    (k : ℕ × I3) (hk : ¬ Tlo HX d k) : radiative_H_lo c g b p d F k = F k := by
  unfold radiative_H_lo
  refine foldl_frame _ _ (Tlo HX d) (fun n hn F k hk => ?_) F k hk
  have hn' := (mem_box.1 hn d).2
  rw [Function.update_self] at hn'
  apply radLo_frame <;>
  · rintro rfl
    exact hk ⟨_, rfl, by simp only; rw [pos_act hd]; exact hn'⟩

theorem radiative_hi_frame (c : Cfg) (g : GridP K) (b : BndP K) (p : ℕ) (d : Fin 3) (hd : g.inv d = false) (F : PF K)
    (k : ℕ × I3) (hk : ¬ Thi g HX d k) : radiative_H_hi c g b p d F k = F k := by
  unfold radiative_H_hi
  refine foldl_frame _ _ (Thi g HX d) (fun n hn F k hk => ?_) F k hk
  have hn' := (mem_box.1 hn d).1
  rw [Function.update_self] at hn'
  apply radHi_frame <;>
  · rintro rfl
    exact hk ⟨_, rfl, by simp only; rw [pos_act hd]; exact hn'⟩

/-! ### the fills on one patch -/

theorem atLo_iff (c : Cfg) (r p : ℕ) (d : Fin 3) : atLo c r p d = true ↔ c.off r p d = 0 := by
  unfold atLo Cfg.off; simp

theorem atHi_iff (c : Cfg) (r p : ℕ) (d : Fin 3) : atHi c r p d = true ↔ c.off r p d + c.ldims d = c.gdims d := by
  unfold atHi Cfg.off Cfg.gdims; simp

/-- a side that is treated belongs to a direction that is neither invariant nor periodic -/
theorem FitsB.lo_dir {c : Cfg} {g : GridP K} {b : BndP K} (h : FitsB c g b) {d : Fin 3} (hb : b.fld_lo d ≠ .periodic) :
    g.inv d = false ∧ c.D.bc d = false := by
  have h1 : g.inv d = false := by
    cases hi : g.inv d with
    | false => rfl
    | true => exact absurd (h.inv d hi).2.2.2.1 hb
  refine ⟨h1, ?_⟩
  cases hi : c.D.bc d with
  | false => rfl
  | true => exact absurd ((h.act d h1).2 hi).1 hb

theorem FitsB.hi_dir {c : Cfg} {g : GridP K} {b : BndP K} (h : FitsB c g b) {d : Fin 3} (hb : b.fld_hi d ≠ .periodic) :
    g.inv d = false ∧ c.D.bc d = false := by
  have h1 : g.inv d = false := by
    cases hi : g.inv d with
    | false => rfl
    | true => exact absurd (h.inv d hi).2.2.2.2 hb
  refine ⟨h1, ?_⟩
  cases hi : c.D.bc d with
  | false => rfl
  | true => exact absurd ((h.act d h1).2 hi).2 hb

/-- Cells the electric fill may change: electric components outside the domain, or tangential ones on a lower boundary. -/
def TE (c : Cfg) (g : GridP K) (r p : ℕ) (k : ℕ × I3) : Prop :=
  ∃ m : Fin 3, k.1 = EX + m ∧ ∃ d, g.inv d = false ∧ c.D.bc d = false ∧
    (c.off r p d + k.2 d < 0 ∨ c.gdims d ≤ c.off r p d + k.2 d ∨ c.off r p d + k.2 d = 0 ∧ m ≠ d)

theorem fillE_frame {c : Cfg} {g : GridP K} {b : BndP K} (h : FitsB c g b) {r p : ℕ} {F F' : PF K}
    (hF : fillE c g b r p F = some F') (k : ℕ × I3) (hk : ¬ TE c g r p k) : F' k = F k := by
  unfold fillE at hF
  simp only [bind, Option.bind_eq_some_iff] at hF
  obtain ⟨F1, h1, h2⟩ := hF
  have lo : ∀ d, atLo c r p d = true → b.fld_lo d ≠ .periodic → TElo d k → False := by
    rintro d ha hb ⟨m, hm, ht⟩
    obtain ⟨i1, i2⟩ := h.lo_dir hb
    rw [atLo_iff] at ha
    refine hk ⟨m, hm, d, i1, i2, ?_⟩
    rw [ha]; rcases ht with ht | ht
    · left; omega
    · right; right; exact ⟨by omega, ht.2⟩
  have hi : ∀ d, atHi c r p d = true → b.fld_hi d ≠ .periodic → Thi g EX d k → False := by
    rintro d ha hb ⟨m, hm, ht⟩
    obtain ⟨i1, i2⟩ := h.hi_dir hb
    rw [atHi_iff, h.ldims] at ha
    exact hk ⟨m, hm, d, i1, i2, by right; left; omega⟩
  have hT : ¬ (∃ d, atHi c r p d = true ∧ b.fld_hi d ≠ .periodic ∧ Thi g EX d k) := by
    rintro ⟨d, ha, hb, ht⟩; exact hi d ha hb ht
  have lT : ¬ (∃ d, atLo c r p d = true ∧ b.fld_lo d ≠ .periodic ∧ TElo d k) := by
    rintro ⟨d, ha, hb, ht⟩; exact lo d ha hb ht
  rw [sides_frame (fun k => ∃ d, atHi c r p d = true ∧ b.fld_hi d ≠ .periodic ∧ Thi g EX d k) ?_ ?_ h2 k hT,
    sides_frame (fun k => ∃ d, atLo c r p d = true ∧ b.fld_lo d ≠ .periodic ∧ TElo d k) ?_ ?_ h1 k lT]
  · intro d ha hb F F' hF k hk
    have hb' : b.fld_lo d ≠ .periodic := by rw [hb]; decide
    exact conducting_frame c g (-2) _ d (TElo d) (wallE_lo_frame g d (h.lo_dir hb').1) hF k
      (fun ht => hk ⟨d, ha, hb', ht⟩)
  · intro d ha hb F F' hF k hk
    have hb' : b.fld_lo d ≠ .periodic := by rw [hb]; decide
    simp only [Option.some.injEq] at hF
    rw [← hF]
    exact set_lower_frame c g d (h.lo_dir hb').1 EX _ F k
      (fun ⟨m, hm, ht⟩ => hk ⟨d, ha, hb', m, hm, Or.inl ht⟩)
  · intro d ha hb F F' hF k hk
    have hb' : b.fld_hi d ≠ .periodic := by rw [hb]; decide
    exact conducting_frame c g (-2) _ d (Thi g EX d) (wallE_hi_frame g d (h.hi_dir hb').1) hF k
      (fun ht => hk ⟨d, ha, hb', ht⟩)
  · intro d ha hb F F' hF k hk
    have hb' : b.fld_hi d ≠ .periodic := by rw [hb]; decide
    simp only [Option.some.injEq] at hF
    rw [← hF]
    exact set_upper_frame c g d (h.hi_dir hb').1 EX _ F k (fun ht => hk ⟨d, ha, hb', ht⟩)

/-- Cells the magnetic fill may change: magnetic components outside the domain. -/
def TH (c : Cfg) (g : GridP K) (r p : ℕ) (k : ℕ × I3) : Prop :=
  ∃ m : Fin 3, k.1 = HX + m ∧ ∃ d, g.inv d = false ∧ c.D.bc d = false ∧
    (c.off r p d + k.2 d < 0 ∨ c.gdims d ≤ c.off r p d + k.2 d)

theorem fillH_frame {c : Cfg} {g : GridP K} {b : BndP K} (h : FitsB c g b) {r p : ℕ} {F F' : PF K}
    (hF : fillH c g b r p F = some F') (k : ℕ × I3) (hk : ¬ TH c g r p k) : F' k = F k := by
  unfold fillH at hF
  simp only [bind, Option.bind_eq_some_iff] at hF
  obtain ⟨F1, h1, h2⟩ := hF
  have hT : ¬ (∃ d, atHi c r p d = true ∧ b.fld_hi d ≠ .periodic ∧ Thi g HX d k) := by
    rintro ⟨d, ha, hb, m, hm, ht⟩
    obtain ⟨i1, i2⟩ := h.hi_dir hb
    rw [atHi_iff, h.ldims] at ha
    exact hk ⟨m, hm, d, i1, i2, by right; omega⟩
  have lT : ¬ (∃ d, atLo c r p d = true ∧ b.fld_lo d ≠ .periodic ∧ Tlo HX d k) := by
    rintro ⟨d, ha, hb, m, hm, ht⟩
    obtain ⟨i1, i2⟩ := h.lo_dir hb
    rw [atLo_iff] at ha
    exact hk ⟨m, hm, d, i1, i2, by left; omega⟩
  rw [sides_frame (fun k => ∃ d, atHi c r p d = true ∧ b.fld_hi d ≠ .periodic ∧ Thi g HX d k) ?_ ?_ h2 k hT,
    sides_frame (fun k => ∃ d, atLo c r p d = true ∧ b.fld_lo d ≠ .periodic ∧ Tlo HX d k) ?_ ?_ h1 k lT]
  · intro d ha hb F F' hF k hk
    have hb' : b.fld_lo d ≠ .periodic := by rw [hb]; decide
    exact conducting_frame c g (-1) _ d (Tlo HX d) (wallH_lo_frame g d (h.lo_dir hb').1) hF k
      (fun ht => hk ⟨d, ha, hb', ht⟩)
  · intro d ha hb F F' hF k hk
    have hb' : b.fld_lo d ≠ .periodic := by rw [hb]; decide
    simp only [Option.some.injEq] at hF
    rw [← hF]
    exact radiative_lo_frame c g b p d (h.lo_dir hb').1 F k (fun ht => hk ⟨d, ha, hb', ht⟩)
  · intro d ha hb F F' hF k hk
    have hb' : b.fld_hi d ≠ .periodic := by rw [hb]; decide
    exact conducting_frame c g (-2) _ d (Thi g HX d) (wallH_hi_frame g d (h.hi_dir hb').1) hF k
      (fun ht => hk ⟨d, ha, hb', ht⟩)
  · intro d ha hb F F' hF k hk
    have hb' : b.fld_hi d ≠ .periodic := by rw [hb]; decide
    simp only [Option.some.injEq] at hF
    rw [← hF]
    exact radiative_hi_frame c g b p d (h.hi_dir hb').1 F k (fun ht => hk ⟨d, ha, hb', ht⟩)

theorem bndAll_some {c : Cfg} {f : ℕ → ℕ → PF K → Option (PF K)} {σ τ : Glob K} (h : bndAll c f σ = some τ) {r p : ℕ}
    (hp : c.D.Has r p) : f r p (σ r p) = some (τ r p) := by
  unfold bndAll at h
  split_ifs at h with hs
  simp only [Option.some.injEq] at h
  have := hs r (List.mem_range.2 hp.1) p (List.mem_range.2 hp.2)
  rw [Option.isSome_iff_exists] at this
  obtain ⟨F, hF⟩ := this
  rw [← h]
  simp only [hF, Option.getD_some]

/-! ### folding the current touches, and depends on, the current only -/

theorem foldl_rel {α S : Type*} (R : S → S → Prop) (l : List α) (f f' : S → α → S)
    (h : ∀ a ∈ l, ∀ s s', R s s' → R (f s a) (f' s' a)) {s s' : S} (hs : R s s') : R (l.foldl f s) (l.foldl f' s') := by
  induction l generalizing s s' with
  | nil => exact hs
  | cons a l ih => exact ih (fun a ha => h a (List.mem_cons_of_mem _ ha)) (h a List.mem_cons_self _ _ hs)

/-- equal currents -/
def SameJ (F G : PF K) : Prop := ∀ k : ℕ × I3, k.1 < 3 → F k = G k

theorem SameJ.wr {g : GridP K} {F G : PF K} (h : SameJ F G) (m : ℕ) (n : I3) {v w : K} (hv : v = w) :
    SameJ (wr g F m n v) (wr g G m n w) := by
  intro k hk
  by_cases e : k = (m, pos g.inv n)
  · subst e; rw [wr_same, wr_same, hv]
  · rw [wr_other e, wr_other e, h k hk]

theorem SameJ.rd {g : GridP K} {F G : PF K} (h : SameJ F G) (m : Fin 3) (n : I3) :
    BndFields.rd g F (JXI + m) n = BndFields.rd g G (JXI + m) n := h _ (by simp only [JXI]; omega)

theorem wallJ_lo_same (g : GridP K) (d : Fin 3) (at_ : ℤ → I3) {F G : PF K} (h : SameJ F G) :
    SameJ (wallJ_lo g d F at_) (wallJ_lo g d G at_) := by
  unfold wallJ_lo
  refine foldl_rel SameJ _ _ _ (fun m _ F G h => ?_) h
  simp only
  split_ifs
  · exact (h.wr _ _ (by rw [h.rd, h.rd])).wr _ _ rfl
  · exact (h.wr _ _ (by rw [h.rd, h.rd])).wr _ _ rfl

theorem wallJ_hi_same (g : GridP K) (d : Fin 3) (at_ : ℤ → I3) {F G : PF K} (h : SameJ F G) :
    SameJ (wallJ_hi g d F at_) (wallJ_hi g d G at_) := by
  unfold wallJ_hi
  refine foldl_rel SameJ _ _ _ (fun m _ F G h => ?_) h
  split_ifs
  · exact (h.wr _ _ (by rw [h.rd, h.rd])).wr _ _ rfl
  · exact (h.wr _ _ (by rw [h.rd, h.rd])).wr _ _ rfl

theorem conducting_same (c : Cfg) (g : GridP K) (lo1 : ℤ) (body : GridP K → Fin 3 → PF K → (ℤ → I3) → PF K) (d : Fin 3)
    (hb : ∀ (d : Fin 3) (at_ : ℤ → I3) (F G : PF K), SameJ F G → SameJ (body g d F at_) (body g d G at_))
    {F G F' : PF K} (h : SameJ F G) (hF : conducting_wall c g lo1 body d F = some F') :
    ∃ G', conducting_wall c g lo1 body d G = some G' ∧ SameJ F' G' := by
  unfold conducting_wall at *
  split_ifs at hF ⊢
  · simp only [Option.some.injEq] at hF
    refine ⟨_, rfl, ?_⟩
    rw [← hF]
    unfold wallLoop
    refine foldl_rel SameJ _ _ _ (fun b _ F G h => ?_) h
    refine foldl_rel SameJ _ _ _ (fun a _ F G h => ?_) h
    exact hb _ _ _ _ h
  · simp only [Option.some.injEq] at hF
    refine ⟨_, rfl, ?_⟩
    rw [← hF]
    unfold wallLoop
    refine foldl_rel SameJ _ _ _ (fun b _ F G h => ?_) h
    refine foldl_rel SameJ _ _ _ (fun a _ F G h => ?_) h
    exact hb _ _ _ _ h

theorem sides_same {at_ : Fin 3 → Bool} {bc : Fin 3 → FldBC} {wall : Fin 3 → PF K → Option (PF K)}
    (hw : ∀ d (F G F' : PF K), SameJ F G → wall d F = some F' → ∃ G', wall d G = some G' ∧ SameJ F' G')
    {F G F' : PF K} (h : SameJ F G) (hF : sides at_ bc wall (fun _ F => some F) F = some F') :
    ∃ G', sides at_ bc wall (fun _ F => some F) G = some G' ∧ SameJ F' G' := by
  unfold sides at *
  generalize List.finRange 3 = l at *
  induction l generalizing F G with
  | nil => simp only [List.foldlM_nil, pure, Option.some.injEq] at hF ⊢; subst hF; exact ⟨G, rfl, h⟩
  | cons d l ih =>
    simp only [List.foldlM_cons, bind, Option.bind_eq_some_iff] at hF ⊢
    obtain ⟨F1, h1, h2⟩ := hF
    have key : ∃ G1, (if at_ d then
      match bc d with
      | .periodic => some G
      | .conducting => wall d G
      | .open => some G
      | .other => none
    else some G) = some G1 ∧ SameJ F1 G1 := by
      by_cases ha : at_ d
      · rw [if_pos ha] at h1 ⊢
        cases hb : bc d with
        | periodic => rw [hb] at h1; simp only [Option.some.injEq] at h1 ⊢; subst h1; exact ⟨G, rfl, h⟩
        | conducting => rw [hb] at h1; exact hw d F G F1 h h1
        | «open» => rw [hb] at h1; simp only [Option.some.injEq] at h1 ⊢; subst h1; exact ⟨G, rfl, h⟩
        | other => rw [hb] at h1; simp at h1
      · rw [if_neg ha] at h1 ⊢; simp only [Option.some.injEq] at h1 ⊢; subst h1; exact ⟨G, rfl, h⟩
    obtain ⟨G1, e1, s1⟩ := key
    obtain ⟨G', e2, s2⟩ := ih s1 h2
    exact ⟨G', ⟨G1, e1, e2⟩, s2⟩

theorem foldJ_same {c : Cfg} {g : GridP K} {b : BndP K} {r p : ℕ} {F G F' : PF K} (h : SameJ F G)
    (hF : foldJ c g b r p F = some F') : ∃ G', foldJ c g b r p G = some G' ∧ SameJ F' G' := by
  unfold foldJ at *
  simp only [bind, Option.bind_eq_some_iff] at hF ⊢
  obtain ⟨F1, h1, h2⟩ := hF
  obtain ⟨G1, e1, s1⟩ := sides_same (fun d F G F' h hF => conducting_same c g (-2) _ d
    (fun d at_ F G h => wallJ_lo_same g d at_ h) h hF) h h1
  obtain ⟨G2, e2, s2⟩ := sides_same (fun d F G F' h hF => conducting_same c g (-2) _ d
    (fun d at_ F G h => wallJ_hi_same g d at_ h) h hF) s1 h2
  exact ⟨G2, ⟨G1, e1, e2⟩, s2⟩

theorem foldJ_frame {c : Cfg} {g : GridP K} {b : BndP K} {r p : ℕ} {F F' : PF K}
    (hF : foldJ c g b r p F = some F') (k : ℕ × I3) (hk : 3 ≤ k.1) : F' k = F k := by
  have hk' : ¬ k.1 < 3 := by omega
  unfold foldJ at hF
  simp only [bind, Option.bind_eq_some_iff] at hF
  obtain ⟨F1, h1, h2⟩ := hF
  have ne : ∀ (k : ℕ × I3) (_ : ¬ k.1 < 3) (m : Fin 3) (n : I3), k ≠ (JXI + (m : ℕ), n) := by
    rintro k hk m n rfl; apply hk; simp only [JXI]; omega
  rw [sides_frame (fun k => k.1 < 3) ?_ ?_ h2 k hk', sides_frame (fun k => k.1 < 3) ?_ ?_ h1 k hk']
  · intro d _ _ F F' hF k hk
    refine conducting_frame c g (-2) _ d (fun k => k.1 < 3) (fun at_ _ F k hk => ?_) hF k hk
    unfold wallJ_lo
    refine foldl_frame _ _ (fun k => k.1 < 3) (fun m _ F k hk => ?_) F k hk
    rw [wr_other (ne k hk m _)]
    split_ifs <;> rw [wr_other (ne k hk m _)]
  · intro d _ _ F F' hF k _; simp only [Option.some.injEq] at hF; rw [hF]
  · intro d _ _ F F' hF k hk
    refine conducting_frame c g (-2) _ d (fun k => k.1 < 3) (fun at_ _ F k hk => ?_) hF k hk
    unfold wallJ_hi
    refine foldl_frame _ _ (fun k => k.1 < 3) (fun m _ F k hk => ?_) F k hk
    split_ifs <;> rw [wr_other (ne k hk m _), wr_other (ne k hk m _)]
  · intro d _ _ F F' hF k _; simp only [Option.some.injEq] at hF; rw [hF]

/-! ### exchange -/

theorem interior_inDomain {c : Cfg} (hc : c.Ok) {r p : ℕ} (hp : c.D.Has r p) {n : I3} (hn : Interior c n) :
    InDomain c r p n := by
  intro d
  right
  have h1 := (C25_idx3_owner c.D hc.valid r p hp).1 d
  have h2 := hn d
  unfold Cfg.off Cfg.gdims
  have h3 : ((c.D.idx3 r p d : ℤ) + 1) * c.ldims d ≤ (c.D.np d : ℤ) * c.ldims d :=
    mul_le_mul_of_nonneg_right (by exact_mod_cast h1) (by omega)
  have h4 : (0 : ℤ) ≤ (c.D.idx3 r p d : ℤ) * c.ldims d := mul_nonneg (by positivity) (by omega)
  rw [add_mul, one_mul] at h3
  omega

theorem exists_ownedB {c : Cfg} (hc : c.Ok) (hL : ∀ d, 0 < c.ldims d) (σ : Glob K) (m : ℕ) :
    ∃ G, Periodic c G ∧ Owns c σ m G := by
  classical
  let Own : I3 → (ℕ × ℕ) × I3 → Prop := fun x y =>
    c.D.Has y.1.1 y.1.2 ∧ Interior c y.2 ∧ phys c y.1.1 y.1.2 y.2 = wrap c x
  refine ⟨fun x => if hx : ∃ y, Own x y then σ hx.choose.1.1 hx.choose.1.2 (m, hx.choose.2) else 0, ?_, ?_⟩
  · intro x y hxy
    have : Own x = Own y := by funext z; simp only [Own, hxy]
    simp only [this]
  · intro r p hp n hn
    have hx : ∃ y, Own (fun d => c.off r p d + n d) y := ⟨((r, p), n), hp, hn, rfl⟩
    obtain ⟨y0, hy0, huniq⟩ := C27_unique_owner c hc hL r p n hp (interior_stored hc hn) (interior_inDomain hc hp hn)
    have hc := hx.choose_spec
    have e1 := huniq hx.choose ⟨hc.1, hc.2.1, hc.2.2⟩
    have e2 := huniq ((r, p), n) ⟨hp, hn, rfl⟩
    simp only
    rw [dif_pos hx, e1, ← e2]

theorem fillAllB_spec {c : Cfg} (hc : c.Ok) (hL : ∀ d, 0 < c.ldims d) (mb me : ℕ) (hm : mb ≤ me) {σ τ : Glob K}
    (h : fillAll c mb me σ = some τ) :
    (∀ m G, mb ≤ m → m < me → Periodic c G → Owns c σ m G → HoldsIn c τ m G) ∧
    (∀ r p, c.D.Has r p → ∀ m n, (Interior c n ∨ ¬ InDomain c r p n ∨ ¬ Stored c n ∨ m < mb ∨ me ≤ m) →
      τ r p (m, n) = σ r p (m, n)) := by
  choose τ' hτ hv using fun rank => C27_fill_owner c hc mb me hm σ rank
  have : fillAll c mb me σ = some τ' := collective_some _ _ _ _ hτ
  rw [h, Option.some.injEq] at this
  subst this
  constructor
  · intro m G h1 h2 hG hO r p hp n hn hd
    obtain ⟨⟨⟨r', p'⟩, n'⟩, ⟨hp', hi, he⟩, -⟩ := C27_unique_owner c hc hL r p n hp hn hd
    simp only at hp' hi he
    rw [hv r p m n r' p' n' hp hp' h1 h2 hn hi he, hO r' p' hp' n' hi]
    exact hG _ _ he
  · intro r p hp m n hk
    obtain ⟨S, hS, hS'⟩ := C27_fill_rest c hc mb me hm σ r
    rw [hτ r, Option.some.injEq] at hS
    rw [hS]
    exact hS' p m n hp hk

theorem addAllB_spec {c : Cfg} (hc : c.Ok) (mb me : ℕ) (hm : mb ≤ me) {σ τ : Glob K} (h : addAll c mb me σ = some τ) :
    (∀ m, mb ≤ m → m < me → Owns c τ m (total c σ m)) ∧
    (∀ r p, c.D.Has r p → ∀ m n, (¬ Interior c n ∨ m < mb ∨ me ≤ m) → τ r p (m, n) = σ r p (m, n)) := by
  choose τ' hτ hv using fun rank => C28_add_owner c hc mb me hm σ rank
  have : addAll c mb me σ = some τ' := collective_some _ _ _ _ hτ
  rw [h, Option.some.injEq] at this
  subst this
  constructor
  · intro m h1 h2 r p hp n hn
    rw [hv r p m n hp h1 h2 hn]
    rfl
  · intro r p hp m n hk
    obtain ⟨S, hS, hS'⟩ := C28_add_rest c hc mb me hm σ r
    rw [hτ r, Option.some.injEq] at hS
    rw [hS]
    exact hS' p m n hp hk

/-! ### one step -/

theorem FitsB.gridOk {c : Cfg} {g : GridP K} {b : BndP K} (h : FitsB c g b) : GridOk g := fun d hd => (h.inv d hd).1

theorem FitsB.c_pos {c : Cfg} {g : GridP K} {b : BndP K} (h : FitsB c g b) : ∀ d, 0 < c.ldims d := by
  rw [h.ldims]; exact h.pos

theorem FitsB.interior_region {c : Cfg} {g : GridP K} {b : BndP K} (h : FitsB c g b) {l r : ℤ} (hl : 0 ≤ l) (hr : 0 ≤ r)
    {n : I3} (hn : Interior c n) : Region g l r n := by
  intro d
  have := hn d
  rw [h.ldims] at this
  cases hd : g.inv d with
  | false => simp only [Bool.false_eq_true, if_false]; omega
  | true =>
    obtain ⟨h1, -, -⟩ := h.inv d hd
    simp only [if_true]; omega

theorem FitsB.shift_stored {c : Cfg} {g : GridP K} {b : BndP K} (h : FitsB c g b) {n : I3} (hn : Interior c n) {d : Fin 3}
    (hd : g.inv d = false) {s : ℤ} (h1 : -2 ≤ s) (h2 : s ≤ 2) : Stored c (shift n d s) := by
  intro e
  have := hn e
  have h0 := (h.ok.ibn e).1
  unfold shift
  split_ifs with he
  · subst he
    have := (h.act e hd).1
    omega
  · omega

theorem dn_inDomain {c : Cfg} (hc : c.Ok) {r p : ℕ} (hp : c.D.Has r p) {n : I3} (hn : Interior c n) (d : Fin 3)
    (hx : c.D.bc d = false → 1 ≤ c.off r p d + n d) : InDomain c r p (shift n d (-1)) := by
  intro e
  rcases interior_inDomain hc hp hn e with h | h
  · exact .inl h
  · cases hb : c.D.bc e with
    | true => exact .inl rfl
    | false =>
      right
      unfold shift
      split_ifs with he
      · subst he; have := hx hb; omega
      · exact h

theorem up_inDomain {c : Cfg} (hc : c.Ok) {r p : ℕ} (hp : c.D.Has r p) {n : I3} (hn : Interior c n) (d : Fin 3)
    (hx : c.D.bc d = false → c.off r p d + n d + 1 < c.gdims d) : InDomain c r p (shift n d 1) := by
  intro e
  rcases interior_inDomain hc hp hn e with h | h
  · exact .inl h
  · cases hb : c.D.bc e with
    | true => exact .inl rfl
    | false =>
      right
      unfold shift
      split_ifs with he
      · subst he; have := hx hb; omega
      · exact h

/-- not on a lower boundary, except possibly in direction `d` -/
def goodE (c : Cfg) (g : GridP K) (d : Fin 3) (x : I3) : Prop :=
  ∀ e, e ≠ d → g.inv e = false → c.D.bc e = false → 1 ≤ x e

/-- not at an upper boundary, except possibly in direction `d` -/
def goodH (c : Cfg) (g : GridP K) (d : Fin 3) (x : I3) : Prop :=
  ∀ e, e ≠ d → g.inv e = false → c.D.bc e = false → x e + 1 < c.gdims e

theorem dB_in {c : Cfg} {g : GridP K} {b : BndP K} (h : FitsB c g b) {σ : Glob K} {m : ℕ} {G : I3 → K} (hG : HoldsIn c σ m G)
    {r p : ℕ} (hp : c.D.Has r p) {n : I3} (hn : Interior c n) (d : Fin 3)
    (hx : g.inv d = false → c.D.bc d = false → 1 ≤ c.off r p d + n d) (C : I3 → K) (hC : ∀ n, C n = σ r p (m, n)) :
    dB g.act g.dx C d n = dB g.act g.dx G d (fun d => c.off r p d + n d) := by
  unfold dB
  cases hd : g.inv d with
  | true => simp [GridP.act, hd]
  | false =>
    simp only [GridP.act, hd, Bool.not_false, if_true, hC]
    rw [hG r p hp n (interior_stored h.ok hn) (interior_inDomain h.ok hp hn),
      hG r p hp _ (h.shift_stored hn hd (by omega) (by omega)) (dn_inDomain h.ok hp hn d (hx hd)), shift_add]

theorem dF_in {c : Cfg} {g : GridP K} {b : BndP K} (h : FitsB c g b) {σ : Glob K} {m : ℕ} {G : I3 → K} (hG : HoldsIn c σ m G)
    {r p : ℕ} (hp : c.D.Has r p) {n : I3} (hn : Interior c n) (d : Fin 3)
    (hx : g.inv d = false → c.D.bc d = false → c.off r p d + n d + 1 < c.gdims d) (C : I3 → K)
    (hC : ∀ n, C n = σ r p (m, n)) :
    dF g.act g.dx C d n = dF g.act g.dx G d (fun d => c.off r p d + n d) := by
  unfold dF
  cases hd : g.inv d with
  | true => simp [GridP.act, hd]
  | false =>
    simp only [GridP.act, hd, Bool.not_false, if_true, hC]
    rw [hG r p hp n (interior_stored h.ok hn) (interior_inDomain h.ok hp hn),
      hG r p hp _ (h.shift_stored hn hd (by omega) (by omega)) (up_inDomain h.ok hp hn d (hx hd)), shift_add]

theorem fin3_ne (d : Fin 3) : d + 1 ≠ d ∧ d + 2 ≠ d := by revert d; decide

theorem pushE_good {c : Cfg} {g : GridP K} {b : BndP K} (h : FitsB c g b) (fac : K) {σ : Glob K} {E H J : VF K}
    (hE : ∀ d : Fin 3, HoldsIn c σ (EX + d) (E d)) (hH : ∀ d : Fin 3, HoldsIn c σ (HX + d) (H d))
    (hJ : ∀ d : Fin 3, HoldsIn c σ (JXI + d) (J d)) {r p : ℕ} (hp : c.D.Has r p) {n : I3} (hn : Interior c n) (d : Fin 3)
    (hg : goodE c g d (fun d => c.off r p d + n d)) :
    pushE g fac σ r p (EX + d, n) = ampere g.act g.dx (fac * g.dt) E H J d (fun d => c.off r p d + n d) := by
  unfold pushE
  rw [ofFlds_E, (push_E_eq g h.gridOk fac (toFlds (σ r p))).2.2 d n, if_pos (h.interior_region (by omega) (by omega) hn)]
  simp only [ampere, curlH]
  rw [dB_in h (hH _) hp hn _ (hg _ (fin3_ne d).1) _ (toFlds_H _ _), dB_in h (hH _) hp hn _ (hg _ (fin3_ne d).2) _ (toFlds_H _ _),
    toFlds_E, toFlds_J, hE d r p hp n (interior_stored h.ok hn) (interior_inDomain h.ok hp hn),
    hJ d r p hp n (interior_stored h.ok hn) (interior_inDomain h.ok hp hn)]

theorem pushH_good {c : Cfg} {g : GridP K} {b : BndP K} (h : FitsB c g b) (fac : K) {σ : Glob K} {E H : VF K}
    (hE : ∀ d : Fin 3, HoldsIn c σ (EX + d) (E d)) (hH : ∀ d : Fin 3, HoldsIn c σ (HX + d) (H d))
    {r p : ℕ} (hp : c.D.Has r p) {n : I3} (hn : Interior c n) (d : Fin 3)
    (hg : goodH c g d (fun d => c.off r p d + n d)) :
    pushH g fac σ r p (HX + d, n) = faraday g.act g.dx (fac * g.dt) E H d (fun d => c.off r p d + n d) := by
  unfold pushH
  rw [ofFlds_H, (push_H_eq g h.gridOk fac (toFlds (σ r p))).2.2 d n, if_pos (h.interior_region (by omega) (by omega) hn)]
  simp only [faraday, curlE]
  rw [dF_in h (hE _) hp hn _ (hg _ (fin3_ne d).1) _ (toFlds_E _ _), dF_in h (hE _) hp hn _ (hg _ (fin3_ne d).2) _ (toFlds_E _ _),
    toFlds_H, hH d r p hp n (interior_stored h.ok hn) (interior_inDomain h.ok hp hn)]
  ring

theorem pushE_other (g : GridP K) (hg : GridOk g) (fac : K) (σ : Glob K) (r p : ℕ) (k : ℕ × I3) (hk : k.1 < 3 ∨ 6 ≤ k.1) :
    pushE g fac σ r p k = σ r p k := by
  obtain ⟨m, n⟩ := k
  have e := push_E_eq g hg fac (toFlds (σ r p))
  unfold pushE
  simp only at hk
  rcases hk with hk | hk
  · have : m = JXI + (⟨m, hk⟩ : Fin 3).1 := by simp [JXI]
    rw [this, ofFlds_J, e.2.1, toFlds_J]
  · by_cases h9 : m < 9
    · have : m = HX + (⟨m - 6, by omega⟩ : Fin 3).1 := by simp only [HX]; omega
      rw [this, ofFlds_H, e.1, toFlds_H]
    · unfold ofFlds
      simp only
      rw [dif_neg (by omega), dif_neg (by omega), dif_neg (by omega)]

theorem pushH_other (g : GridP K) (hg : GridOk g) (fac : K) (σ : Glob K) (r p : ℕ) (k : ℕ × I3) (hk : k.1 < 6) :
    pushH g fac σ r p k = σ r p k := by
  obtain ⟨m, n⟩ := k
  have e := push_H_eq g hg fac (toFlds (σ r p))
  unfold pushH
  simp only at hk
  by_cases h3 : m < 3
  · have : m = JXI + (⟨m, h3⟩ : Fin 3).1 := by simp [JXI]
    rw [this, ofFlds_J, e.2.1, toFlds_J]
  · have : m = EX + (⟨m - 3, by omega⟩ : Fin 3).1 := by simp only [EX]; omega
    rw [this, ofFlds_E, e.1, toFlds_E]

theorem wrap_np {c : Cfg} {x y : I3} (h : wrap c x = wrap c y) {d : Fin 3} (hd : c.D.bc d = false) : x d = y d := by
  have := congrFun h d
  simpa [wrap, hd] using this

/-- Two periodic functions that agree where some patch owns the cell agree in all stored cells in the domain. -/
theorem extend {c : Cfg} (hc : c.Ok) (hL : ∀ d, 0 < c.ldims d) {G G' : I3 → K} (hG : Periodic c G) (hG' : Periodic c G')
    (P : I3 → Prop) (hP : ∀ x y, wrap c x = wrap c y → P x → P y)
    (h : ∀ r p, c.D.Has r p → ∀ n, Interior c n → P (fun d => c.off r p d + n d) →
      G (fun d => c.off r p d + n d) = G' (fun d => c.off r p d + n d))
    {r p : ℕ} (hp : c.D.Has r p) {n : I3} (hn : Stored c n) (hd : InDomain c r p n) (hx : P (fun d => c.off r p d + n d)) :
    G (fun d => c.off r p d + n d) = G' (fun d => c.off r p d + n d) := by
  obtain ⟨⟨⟨r', p'⟩, n'⟩, ⟨hp', hi, he⟩, -⟩ := C27_unique_owner c hc hL r p n hp hn hd
  simp only at hp' hi he
  have he' : wrap c (fun d => c.off r' p' d + n' d) = wrap c (fun d => c.off r p d + n d) := he
  rw [← hG _ _ he', ← hG' _ _ he']
  exact h r' p' hp' n' hi (hP _ _ he'.symm hx)

theorem HoldsIn.owns {c : Cfg} (hc : c.Ok) {σ : Glob K} {m : ℕ} {G : I3 → K} (h : HoldsIn c σ m G) : Owns c σ m G :=
  fun r p hp n hn => h r p hp n (interior_stored hc hn) (interior_inDomain hc hp hn)

theorem HoldsIn.congr {c : Cfg} {σ τ : Glob K} {m : ℕ} {G : I3 → K} (h : HoldsIn c σ m G)
    (he : ∀ r p, c.D.Has r p → ∀ n, Stored c n → InDomain c r p n → τ r p (m, n) = σ r p (m, n)) : HoldsIn c τ m G :=
  fun r p hp n hn hd => by rw [he r p hp n hn hd]; exact h r p hp n hn hd

/-- the magnetic part of the step: push, boundary condition, exchange -/
theorem magStep {c : Cfg} {g : GridP K} {b : BndP K} (h : FitsB c g b) {σ σ1 τ : Glob K} {E H : VF K}
    (pE : ∀ d, Periodic c (E d)) (pH : ∀ d, Periodic c (H d))
    (hE : ∀ d : Fin 3, HoldsIn c σ (EX + d) (E d)) (hH : ∀ d : Fin 3, HoldsIn c σ (HX + d) (H d)) (fac : K)
    (h1 : bndAll c (fillH c g b) (pushH g fac σ) = some σ1) (h2 : fillAll c HX (HX + 3) σ1 = some τ) :
    ∃ H' : VF K, (∀ d, Periodic c (H' d)) ∧ (∀ d : Fin 3, HoldsIn c τ (HX + d) (H' d)) ∧
      (∀ r p, c.D.Has r p → ∀ (k : ℕ × I3), k.1 < 6 → τ r p k = σ r p k) ∧
      ∀ r p, c.D.Has r p → ∀ n, Stored c n → InDomain c r p n → ∀ d, goodH c g d (fun d => c.off r p d + n d) →
        H' d (fun d => c.off r p d + n d) = faraday g.act g.dx (fac * g.dt) E H d (fun d => c.off r p d + n d) := by
  choose H' pH' oH' using fun d : Fin 3 => exists_ownedB h.ok h.c_pos σ1 (HX + d)
  obtain ⟨f1, f2⟩ := fillAllB_spec h.ok h.c_pos HX (HX + 3) (by omega) h2
  refine ⟨H', pH', fun d => f1 _ _ (by omega) (by omega) (pH' d) (oH' d), ?_, ?_⟩
  · intro r p hp k hk
    rw [show k = (k.1, k.2) from rfl, f2 r p hp _ _ (.inr (.inr (.inr (.inl hk)))),
      fillH_frame h (bndAll_some h1 hp) _ (by rintro ⟨m, hm, -⟩; simp only [HX] at hm; omega),
      pushH_other g h.gridOk fac σ r p _ hk]
  · intro r p hp n hn hd d hg
    refine extend h.ok h.c_pos (pH' d) (Periodic.faraday pE pH _ _ _ d) (goodH c g d) ?_ ?_ hp hn hd hg
    · intro x y hxy hx e he hi hb
      rw [← wrap_np hxy hb]; exact hx e he hi hb
    · intro r p hp n hn hg
      rw [← oH' d r p hp n hn, fillH_frame h (bndAll_some h1 hp), pushH_good h fac hE hH hp hn d hg]
      rintro ⟨m, -, e, -, hb, ht⟩
      rcases interior_inDomain h.ok hp hn e with h0 | h0
      · rw [h0] at hb; cases hb
      · simp only at ht; omega

/-- the electric part of the step -/
theorem elStep {c : Cfg} {g : GridP K} {b : BndP K} (h : FitsB c g b) {σ σ1 τ : Glob K} {E H J : VF K}
    (pE : ∀ d, Periodic c (E d)) (pH : ∀ d, Periodic c (H d)) (pJ : ∀ d, Periodic c (J d))
    (hE : ∀ d : Fin 3, HoldsIn c σ (EX + d) (E d)) (hH : ∀ d : Fin 3, HoldsIn c σ (HX + d) (H d))
    (hJ : ∀ d : Fin 3, HoldsIn c σ (JXI + d) (J d)) (fac : K)
    (h1 : bndAll c (fillE c g b) (pushE g fac σ) = some σ1) (h2 : fillAll c EX (EX + 3) σ1 = some τ) :
    ∃ E' : VF K, (∀ d, Periodic c (E' d)) ∧ (∀ d : Fin 3, HoldsIn c τ (EX + d) (E' d)) ∧
      (∀ r p, c.D.Has r p → ∀ (k : ℕ × I3), k.1 < 3 ∨ 6 ≤ k.1 → τ r p k = σ r p k) ∧
      ∀ r p, c.D.Has r p → ∀ n, Stored c n → InDomain c r p n → ∀ d, goodE c g d (fun d => c.off r p d + n d) →
        E' d (fun d => c.off r p d + n d) = ampere g.act g.dx (fac * g.dt) E H J d (fun d => c.off r p d + n d) := by
  choose E' pE' oE' using fun d : Fin 3 => exists_ownedB h.ok h.c_pos σ1 (EX + d)
  obtain ⟨f1, f2⟩ := fillAllB_spec h.ok h.c_pos EX (EX + 3) (by omega) h2
  refine ⟨E', pE', fun d => f1 _ _ (by omega) (by omega) (pE' d) (oE' d), ?_, ?_⟩
  · intro r p hp k hk
    have hk' : k.1 < EX ∨ EX + 3 ≤ k.1 := by simp only [EX]; omega
    rw [show k = (k.1, k.2) from rfl, f2 r p hp _ _ (.inr (.inr (.inr hk'))),
      fillE_frame h (bndAll_some h1 hp) _ (by rintro ⟨m, hm, -⟩; simp only [EX] at hm; have := m.2; omega),
      pushE_other g h.gridOk fac σ r p _ hk]
  · intro r p hp n hn hd d hg
    refine extend h.ok h.c_pos (pE' d) (Periodic.ampere pE pH pJ _ _ _ d) (goodE c g d) ?_ ?_ hp hn hd hg
    · intro x y hxy hx e he hi hb
      rw [← wrap_np hxy hb]; exact hx e he hi hb
    · intro r p hp n hn hg
      rw [← oE' d r p hp n hn, fillE_frame h (bndAll_some h1 hp), pushE_good h fac hE hH hJ hp hn d hg]
      rintro ⟨m, hm, e, hi, hb, ht⟩
      have hmd : m = d := by ext; simp only [EX] at hm; omega
      subst hmd
      rcases interior_inDomain h.ok hp hn e with h0 | h0
      · rw [h0] at hb; cases hb
      · simp only at ht
        rcases ht with ht | ht | ⟨ht, hme⟩
        · omega
        · omega
        · have := hg e (fun h => hme h.symm) hi hb
          simp only at this; omega

/-- the current part of the step -/
theorem curStep {c : Cfg} {g : GridP K} {b : BndP K} (h : FitsB c g b) {dep σ σ1 σ2 τ : Glob K}
    (h1 : bndAll c (foldJ c g b) (fun r p mn => if mn.1 < JXI + 3 then dep r p mn else σ r p mn) = some σ1)
    (h2 : addAll c JXI (JXI + 3) σ1 = some σ2) (h3 : fillAll c JXI (JXI + 3) σ2 = some τ) :
    (∀ d, Periodic c (currentB c g b dep d)) ∧ (∀ d : Fin 3, HoldsIn c τ (JXI + d) (currentB c g b dep d)) ∧
      (∀ r p, c.D.Has r p → ∀ (k : ℕ × I3), 3 ≤ k.1 → τ r p k = σ r p k) := by
  have pJ : ∀ d, Periodic c (currentB c g b dep d) := by
    intro d x y hxy; unfold currentB; rw [hxy]
  obtain ⟨a1, a2⟩ := addAllB_spec h.ok JXI (JXI + 3) (by omega) h2
  obtain ⟨f1, f2⟩ := fillAllB_spec h.ok h.c_pos JXI (JXI + 3) (by omega) h3
  refine ⟨pJ, fun d => f1 _ _ (by omega) (by omega) (pJ d) ?_, ?_⟩
  · have := a1 (JXI + d) (by omega) (by omega)
    have e : total c σ1 (JXI + d) = currentB c g b dep d := by
      funext x
      unfold total currentB
      refine Finset.sum_congr rfl (fun rp hrp => Finset.sum_congr rfl (fun n _ => ?_))
      obtain ⟨G, hG, hS⟩ := foldJ_same (G := dep rp.1 rp.2)
        (fun k hk => if_pos (show k.1 < JXI + 3 by simp only [JXI]; omega)) (bndAll_some h1 (mem_patches.1 hrp))
      rw [hG, Option.getD_some, hS (JXI + d, n) (by simp only [JXI]; omega)]
    rw [e] at this; exact this
  · intro r p hp k hk
    have hk' : JXI + 3 ≤ k.1 := by simp only [JXI]; omega
    rw [show k = (k.1, k.2) from rfl, f2 r p hp _ _ (.inr (.inr (.inr (.inr hk')))), a2 r p hp _ _ (.inr (.inr hk')),
      foldJ_frame (bndAll_some h1 hp) _ hk]
    rw [if_neg (by omega)]

/-- **One step**: the electric field at good edges, and the magnetic field at good faces, follow the leap-frog equations. -/
theorem stepB_spec {c : Cfg} {g : GridP K} {b1 b2 : BndP K} (hb1 : FitsB c g b1) (hb2 : FitsB c g b2) {dep σ τ : Glob K}
    (hs : fieldStepB c g b1 b2 dep σ = some τ) {E H : VF K} (pE : ∀ d, Periodic c (E d)) (pH : ∀ d, Periodic c (H d))
    (hE : ∀ d : Fin 3, HoldsIn c σ (EX + d) (E d)) (hH : ∀ d : Fin 3, HoldsIn c σ (HX + d) (H d)) :
    ∃ E' H1 H' : VF K, (∀ d, Periodic c (E' d)) ∧ (∀ d, Periodic c (H' d)) ∧
      (∀ d : Fin 3, HoldsIn c τ (EX + d) (E' d)) ∧ (∀ d : Fin 3, HoldsIn c τ (HX + d) (H' d)) ∧
      ∀ r p, c.D.Has r p → ∀ n, Stored c n → InDomain c r p n → ∀ d,
        (goodE c g d (fun d => c.off r p d + n d) → E' d (fun d => c.off r p d + n d) =
          ampere g.act g.dx g.dt E H1 (currentB c g b1 dep) d (fun d => c.off r p d + n d)) ∧
        (goodH c g d (fun d => c.off r p d + n d) →
          H1 d (fun d => c.off r p d + n d) =
            faraday g.act g.dx (1/2 * g.dt) E H d (fun d => c.off r p d + n d) ∧
          H' d (fun d => c.off r p d + n d) =
            faraday g.act g.dx (1/2 * g.dt) E' H1 d (fun d => c.off r p d + n d)) := by
  unfold fieldStepB at hs
  simp only [bind, Option.bind_eq_some_iff] at hs
  obtain ⟨s1, k1, s2, k2, s3, k3, s4, k4, s5, k5, s6, k6, s7, k7, s8, k8, k9⟩ := hs
  obtain ⟨pJ, hJ, f1⟩ := curStep hb1 k1 k2 k3
  have hE3 : ∀ d : Fin 3, HoldsIn c s3 (EX + d) (E d) := fun d =>
    (hE d).congr fun r p hp n _ _ => f1 r p hp _ (by simp only [EX]; omega)
  have hH3 : ∀ d : Fin 3, HoldsIn c s3 (HX + d) (H d) := fun d =>
    (hH d).congr fun r p hp n _ _ => f1 r p hp _ (by simp only [HX]; omega)
  obtain ⟨H1, pH1, hH1, f2, e2⟩ := magStep hb1 pE pH hE3 hH3 (1/2) k4 k5
  have hE5 : ∀ d : Fin 3, HoldsIn c s5 (EX + d) (E d) := fun d =>
    (hE3 d).congr fun r p hp n _ _ => f2 r p hp _ (by simp only [EX]; omega)
  have hJ5 : ∀ d : Fin 3, HoldsIn c s5 (JXI + d) (currentB c g b1 dep d) := fun d =>
    (hJ d).congr fun r p hp n _ _ => f2 r p hp _ (by simp only [JXI]; omega)
  obtain ⟨E', pE', hE', f3, e3⟩ := elStep hb1 pE pH1 pJ hE5 hH1 hJ5 1 k6 k7
  have hH7 : ∀ d : Fin 3, HoldsIn c s7 (HX + d) (H1 d) := fun d =>
    (hH1 d).congr fun r p hp n _ _ => f3 r p hp _ (by simp only [HX]; omega)
  obtain ⟨H', pH', hH', f4, e4⟩ := magStep hb2 pE' pH1 hE' hH7 (1/2) k8 k9
  refine ⟨E', H1, H', pE', pH', fun d => (hE' d).congr fun r p hp n _ _ => f4 r p hp _ (by simp only [EX]; omega), hH', ?_⟩
  intro r p hp n hn hd d
  refine ⟨fun hg => ?_, fun hg => ⟨e2 r p hp n hn hd d hg, e4 r p hp n hn hd d hg⟩⟩
  have := e3 r p hp n hn hd d hg
  rw [one_mul] at this; exact this

/-! ### the step does not abort if the boundary conditions are implemented -/

theorem sides_total {at_ : Fin 3 → Bool} {bc : Fin 3 → FldBC} {wall open_ : Fin 3 → PF K → Option (PF K)}
    (hw : ∀ d, bc d = .conducting → ∀ F, ∃ F', wall d F = some F') (ho : ∀ d F, ∃ F', open_ d F = some F')
    (hb : ∀ d, bc d ≠ .other) (F : PF K) : ∃ F', sides at_ bc wall open_ F = some F' := by
  unfold sides
  generalize List.finRange 3 = l
  induction l generalizing F with
  | nil => exact ⟨F, rfl⟩
  | cons d l ih =>
    simp only [List.foldlM_cons, bind, Option.bind_eq_some_iff]
    have key : ∃ F1, (if at_ d then
      match bc d with
      | .periodic => some F
      | .conducting => wall d F
      | .open => open_ d F
      | .other => none
    else some F) = some F1 := by
      by_cases ha : at_ d
      · rw [if_pos ha]
        cases hbd : bc d with
        | periodic => exact ⟨_, rfl⟩
        | conducting => exact hw d hbd F
        | «open» => exact ho d F
        | other => exact absurd hbd (hb d)
      · rw [if_neg ha]; exact ⟨_, rfl⟩
    obtain ⟨F1, h1⟩ := key
    obtain ⟨F2, h2⟩ := ih F1
    exact ⟨F2, F1, h1, h2⟩

theorem wall_total (c : Cfg) (g : GridP K) (lo1 : ℤ) (body : GridP K → Fin 3 → PF K → (ℤ → I3) → PF K) {d : Fin 3}
    (hd : d ≠ 0) (F : PF K) : ∃ F', conducting_wall c g lo1 body d F = some F' := by
  unfold conducting_wall
  split_ifs with h1 h2
  · exact ⟨_, rfl⟩
  · exact ⟨_, rfl⟩
  · exfalso; revert hd h1 h2; revert d; decide

theorem bndAll_total {c : Cfg} {f : ℕ → ℕ → PF K → Option (PF K)} (hf : ∀ r p F, ∃ F', f r p F = some F') (σ : Glob K) :
    ∃ τ, bndAll c f σ = some τ := by
  unfold bndAll
  rw [if_pos]
  · exact ⟨_, rfl⟩
  · intro r _ p _
    obtain ⟨F', h⟩ := hf r p (σ r p)
    rw [h]; rfl

theorem Supported.lo {b : BndP K} (h : Supported b) {d : Fin 3} (hd : b.fld_lo d = .conducting) : d ≠ 0 := by
  rintro rfl; exact h.x.1 hd

theorem Supported.hi {b : BndP K} (h : Supported b) {d : Fin 3} (hd : b.fld_hi d = .conducting) : d ≠ 0 := by
  rintro rfl; exact h.x.2 hd

theorem fillE_total {c : Cfg} {g : GridP K} {b : BndP K} (h : Supported b) (r p : ℕ) (F : PF K) :
    ∃ F', fillE c g b r p F = some F' := by
  obtain ⟨F1, h1⟩ := sides_total (at_ := atLo c r p) (bc := b.fld_lo) (wall := conducting_wall c g (-2) wallE_lo)
    (open_ := fun d F => some (set_lower_ghosts c g d EX b.background_e F)) (fun d hd F => wall_total _ _ _ _ (h.lo hd) F)
    (fun d F => ⟨_, rfl⟩) (fun d => (h.impl d).1) F
  obtain ⟨F2, h2⟩ := sides_total (at_ := atHi c r p) (bc := b.fld_hi) (wall := conducting_wall c g (-2) wallE_hi)
    (open_ := fun d F => some (set_upper_ghosts c g d EX b.background_e F)) (fun d hd F => wall_total _ _ _ _ (h.hi hd) F)
    (fun d F => ⟨_, rfl⟩) (fun d => (h.impl d).2) F1
  exact ⟨F2, by unfold fillE; simp only [bind, Option.bind_eq_some_iff]; exact ⟨F1, h1, h2⟩⟩

theorem fillH_total {c : Cfg} {g : GridP K} {b : BndP K} (h : Supported b) (r p : ℕ) (F : PF K) :
    ∃ F', fillH c g b r p F = some F' := by
  obtain ⟨F1, h1⟩ := sides_total (at_ := atLo c r p) (bc := b.fld_lo) (wall := conducting_wall c g (-1) wallH_lo)
    (open_ := fun d F => some (radiative_H_lo c g b p d F)) (fun d hd F => wall_total _ _ _ _ (h.lo hd) F)
    (fun d F => ⟨_, rfl⟩) (fun d => (h.impl d).1) F
  obtain ⟨F2, h2⟩ := sides_total (at_ := atHi c r p) (bc := b.fld_hi) (wall := conducting_wall c g (-2) wallH_hi)
    (open_ := fun d F => some (radiative_H_hi c g b p d F)) (fun d hd F => wall_total _ _ _ _ (h.hi hd) F)
    (fun d F => ⟨_, rfl⟩) (fun d => (h.impl d).2) F1
  exact ⟨F2, by unfold fillH; simp only [bind, Option.bind_eq_some_iff]; exact ⟨F1, h1, h2⟩⟩

theorem foldJ_total {c : Cfg} {g : GridP K} {b : BndP K} (h : Supported b) (r p : ℕ) (F : PF K) :
    ∃ F', foldJ c g b r p F = some F' := by
  obtain ⟨F1, h1⟩ := sides_total (at_ := atLo c r p) (bc := b.fld_lo) (wall := conducting_wall c g (-2) wallJ_lo)
    (open_ := fun _ F => some F) (fun d hd F => wall_total _ _ _ _ (h.lo hd) F)
    (fun d F => ⟨_, rfl⟩) (fun d => (h.impl d).1) F
  obtain ⟨F2, h2⟩ := sides_total (at_ := atHi c r p) (bc := b.fld_hi) (wall := conducting_wall c g (-2) wallJ_hi)
    (open_ := fun _ F => some F) (fun d hd F => wall_total _ _ _ _ (h.hi hd) F)
    (fun d F => ⟨_, rfl⟩) (fun d => (h.impl d).2) F1
  exact ⟨F2, by unfold foldJ; simp only [bind, Option.bind_eq_some_iff]; exact ⟨F1, h1, h2⟩⟩

theorem fillAll_total {c : Cfg} (hc : c.Ok) (mb me : ℕ) (hm : mb ≤ me) (σ : Glob K) : ∃ τ, fillAll c mb me σ = some τ := by
  choose τ' hτ hv using fun rank => C27_fill_owner c hc mb me hm σ rank
  exact ⟨τ', collective_some _ _ _ _ hτ⟩

theorem addAll_total {c : Cfg} (hc : c.Ok) (mb me : ℕ) (hm : mb ≤ me) (σ : Glob K) : ∃ τ, addAll c mb me σ = some τ := by
  choose τ' hτ hv using fun rank => C28_add_owner c hc mb me hm σ rank
  exact ⟨τ', collective_some _ _ _ _ hτ⟩

theorem fieldStepB_total {c : Cfg} {g : GridP K} {b1 b2 : BndP K} (hc : c.Ok) (h1 : Supported b1) (h2 : Supported b2)
    (dep σ : Glob K) : ∃ τ, fieldStepB c g b1 b2 dep σ = some τ := by
  unfold fieldStepB
  simp only [bind, Option.bind_eq_some_iff]
  obtain ⟨s1, k1⟩ := bndAll_total (c := c) (fun r p F => foldJ_total (c := c) (g := g) h1 r p F)
    (fun r p mn => if mn.1 < JXI + 3 then dep r p mn else σ r p mn)
  obtain ⟨s2, k2⟩ := addAll_total hc JXI (JXI + 3) (by omega) s1
  obtain ⟨s3, k3⟩ := fillAll_total hc JXI (JXI + 3) (by omega) s2
  obtain ⟨s4, k4⟩ := bndAll_total (c := c) (fun r p F => fillH_total (c := c) (g := g) h1 r p F) (pushH g (1/2) s3)
  obtain ⟨s5, k5⟩ := fillAll_total hc HX (HX + 3) (by omega) s4
  obtain ⟨s6, k6⟩ := bndAll_total (c := c) (fun r p F => fillE_total (c := c) (g := g) h1 r p F) (pushE g 1 s5)
  obtain ⟨s7, k7⟩ := fillAll_total hc EX (EX + 3) (by omega) s6
  obtain ⟨s8, k8⟩ := bndAll_total (c := c) (fun r p F => fillH_total (c := c) (g := g) h2 r p F) (pushH g (1/2) s7)
  obtain ⟨s9, k9⟩ := fillAll_total hc HX (HX + 3) (by omega) s8
  exact ⟨s9, s1, k1, s2, k2, s3, k3, s4, k4, s5, k5, s6, k6, s7, k7, s8, k8, k9⟩

theorem div_nc_in {c : Cfg} {g : GridP K} {b : BndP K} (h : FitsB c g b) {σ : Glob K} {E : VF K}
    (hE : ∀ d : Fin 3, HoldsIn c σ (EX + d) (E d)) {r p : ℕ} (hp : c.D.Has r p) {n : I3} (hn : Interior c n)
    (hx : Inside c g (fun d => c.off r p d + n d)) :
    div_nc g (σ r p) n = divE g.act g.dx E (fun d => c.off r p d + n d) := by
  have key : ∀ a : Fin 3, dB g.act g.dx (fun n => σ r p (EX + a, n)) a n = dB g.act g.dx (E a) a (fun d => c.off r p d + n d) :=
    fun a => dB_in h (hE a) hp hn a (hx a) _ (fun _ => rfl)
  have step : ∀ (a : Fin 3) (x : K), (if g.inv a = true then x
      else x + (σ r p (EX + a, n) - σ r p (EX + a, fun e => if e = a then n e - 1 else n e)) / g.dx a) =
      x + dB g.act g.dx (E a) a (fun d => c.off r p d + n d) := by
    intro a x
    rw [← key a, shift_dn_eq]
    unfold dB GridP.act
    cases ha : g.inv a with
    | true => simp
    | false => simp
  unfold div_nc
  rw [foldl_fin3]
  unfold divE
  rw [step, step, step, zero_add]

theorem divH_in {c : Cfg} {g : GridP K} {b : BndP K} (h : FitsB c g b) {σ : Glob K} {H : VF K}
    (hH : ∀ d : Fin 3, HoldsIn c σ (HX + d) (H d)) {r p : ℕ} (hp : c.D.Has r p) {n : I3} (hn : Interior c n)
    (hx : InsideUp c g (fun d => c.off r p d + n d)) :
    divH g.act g.dx (fun d => cv ((toFlds (σ r p)).H d)) n = divH g.act g.dx H (fun d => c.off r p d + n d) := by
  have key : ∀ a : Fin 3, dF g.act g.dx (cv ((toFlds (σ r p)).H a)) a n = dF g.act g.dx (H a) a (fun d => c.off r p d + n d) :=
    fun a => dF_in h (hH a) hp hn a (hx a) _ (fun _ => toFlds_H _ _ _)
  unfold divH
  rw [key, key, key]

/-- the divergence at a node that is not on a lower boundary uses good edges only -/
theorem divE_good {c : Cfg} {g : GridP K} {b : BndP K} (h : FitsB c g b) {E E' : VF K} {r p : ℕ} (hp : c.D.Has r p) {n : I3}
    (hn : Interior c n) (hx : Inside c g (fun d => c.off r p d + n d))
    (he : ∀ n, Stored c n → InDomain c r p n → ∀ d, goodE c g d (fun d => c.off r p d + n d) →
      E' d (fun d => c.off r p d + n d) = E d (fun d => c.off r p d + n d)) :
    divE g.act g.dx E' (fun d => c.off r p d + n d) = divE g.act g.dx E (fun d => c.off r p d + n d) := by
  have one : ∀ d, dB g.act g.dx (E' d) d (fun d => c.off r p d + n d) = dB g.act g.dx (E d) d (fun d => c.off r p d + n d) := by
    intro d
    unfold dB
    cases hd : g.inv d with
    | true => simp [GridP.act, hd]
    | false =>
      simp only [GridP.act, hd, Bool.not_false, if_true]
      rw [he n (interior_stored h.ok hn) (interior_inDomain h.ok hp hn) d (fun e _ => hx e), ← shift_add,
        he _ (h.shift_stored hn hd (by omega) (by omega)) (dn_inDomain h.ok hp hn d (hx d hd)) d]
      intro e hed hi hb
      have := hx e hi hb
      simp only [shift, if_neg hed]
      exact this
  unfold divE
  rw [one, one, one]

theorem divH_good {c : Cfg} {g : GridP K} {b : BndP K} (h : FitsB c g b) {H H' : VF K} {r p : ℕ} (hp : c.D.Has r p) {n : I3}
    (hn : Interior c n) (hx : InsideUp c g (fun d => c.off r p d + n d))
    (he : ∀ n, Stored c n → InDomain c r p n → ∀ d, goodH c g d (fun d => c.off r p d + n d) →
      H' d (fun d => c.off r p d + n d) = H d (fun d => c.off r p d + n d)) :
    divH g.act g.dx H' (fun d => c.off r p d + n d) = divH g.act g.dx H (fun d => c.off r p d + n d) := by
  have one : ∀ d, dF g.act g.dx (H' d) d (fun d => c.off r p d + n d) = dF g.act g.dx (H d) d (fun d => c.off r p d + n d) := by
    intro d
    unfold dF
    cases hd : g.inv d with
    | true => simp [GridP.act, hd]
    | false =>
      simp only [GridP.act, hd, Bool.not_false, if_true]
      rw [he n (interior_stored h.ok hn) (interior_inDomain h.ok hp hn) d (fun e _ => hx e), ← shift_add,
        he _ (h.shift_stored hn hd (by omega) (by omega)) (up_inDomain h.ok hp hn d (hx d hd)) d]
      intro e hed hi hb
      have := hx e hi hb
      simp only [shift, if_neg hed]
      exact this
  unfold divH
  rw [one, one, one]

end

end Psc.BndFields
