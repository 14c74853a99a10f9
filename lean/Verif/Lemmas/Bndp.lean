import Verif.Spec.Bndp
import Verif.Lemmas.Ghost
import Mathlib.Tactic.FieldSimp
import Mathlib.Tactic.Positivity
import Mathlib.Tactic.Linarith

namespace Psc.Bndp

open Domain Ddc

variable {K A : Type} [Field K] [LinearOrder K] [IsStrictOrderedRing K] [FloorRing K]

theorem PatchP.Ok.size_pos {g : PatchP K} (hg : g.Ok) (d : Fin 3) : 0 < g.size d := by
  have := hg d
  unfold PatchP.size
  have h : (0 : K) < g.ldims d := by exact_mod_cast this.1
  exact mul_pos h this.2

theorem cell_neg {g : PatchP K} (hg : g.Ok) (x : K) (d : Fin 3) : cellPosition g.dxi x d < 0 ↔ x < 0 := by
  have h := (hg d).2
  unfold cellPosition PatchP.dxi
  rw [Int.floor_lt, Int.cast_zero]
  constructor
  · intro hx
    by_contra hc
    have : 0 ≤ x * (g.dx d)⁻¹ := mul_nonneg (not_lt.1 hc) (inv_nonneg.2 h.le)
    linarith
  · intro hx
    exact mul_neg_of_neg_of_pos hx (inv_pos.2 h)

theorem cell_ge {g : PatchP K} (hg : g.Ok) (x : K) (d : Fin 3) :
    g.ldims d ≤ cellPosition g.dxi x d ↔ g.size d ≤ x := by
  have h := (hg d).2
  unfold cellPosition PatchP.dxi PatchP.size
  rw [Int.le_floor, ← div_eq_mul_inv, le_div_iff₀ h]

/-- new coordinate -/
def newX (g : PatchP K) (x : R3 K) (d : Fin 3) : K :=
  if x d < 0 then
    if !g.atLo d || g.prt_lo d = .periodic then x d + g.size d else -x d
  else if g.size d ≤ x d then
    if !g.atHi d || g.prt_hi d = .periodic then x d - g.size d
    else if x d = g.size d then g.size d * (1 - 1 / 1000000) else 2 * g.size d - x d
  else x d

/-- new momentum -/
def newU (g : PatchP K) (x u : R3 K) (d : Fin 3) : K :=
  if x d < 0 then
    if !g.atLo d || g.prt_lo d = .periodic then u d else -u d
  else if g.size d ≤ x d then
    if !g.atHi d || g.prt_hi d = .periodic then u d else -u d
  else u d

/-- direction taken -/
def newDir (g : PatchP K) (x : R3 K) : I3 := fun d =>
  if x d < 0 then
    if !g.atLo d || g.prt_lo d = .periodic then -1 else 0
  else if g.size d ≤ x d then
    if !g.atHi d || g.prt_hi d = .periodic then 1 else 0
  else 0

theorem newX_mem {g : PatchP K} (hg : g.Ok) {x : R3 K} (hx : Near g x) (d : Fin 3) :
    0 ≤ newX g x d ∧ newX g x d < g.size d := by
  have hs := hg.size_pos d
  have h := hx d
  unfold newX
  split_ifs with h1 h2 h3 h4 h5
  · constructor <;> linarith
  · constructor <;> linarith
  · constructor <;> linarith
  · constructor
    · exact mul_nonneg hs.le (by norm_num)
    · nlinarith
  · rcases lt_or_eq_of_le h3 with h6 | h6
    · constructor <;> linarith
    · exact absurd h6.symm h5
  · push Not at h1 h3
    exact ⟨h1, h3⟩

/-- one direction of the loop -/
def stepD (g : PatchP K) (pos : I3) (s : LoopS K A) (d : Fin 3) : Option (LoopS K A) := do
  clampStep g (← bndStep g pos s d) d

/-- the update of one direction -/
def upd (g : PatchP K) (x u : R3 K) (s : LoopS K A) (d : Fin 3) : LoopS K A :=
  ((s.setX d (newX g x d)).setU d (newU g x u d)).setDir d (newDir g x d)

theorem stepD_drop {g : PatchP K} {pos : I3} {s : LoopS K A} {d : Fin 3} (h : s.drop = true) :
    ∃ s', stepD g pos s d = some s' ∧ s'.drop = true := by
  have key : ∃ s', bndStep g pos s d = some s' ∧ s'.drop = true := by
    unfold bndStep
    by_cases h1 : pos d < 0
    · rw [if_pos h1]
      by_cases h2 : (!g.atLo d || g.prt_lo d = .periodic) = true
      · rw [if_pos h2]
        simp only
        split_ifs
        · exact ⟨_, rfl, h⟩
        · exact ⟨_, rfl, h⟩
      · rw [if_neg h2]
        cases hp : g.prt_lo d
        · exact ⟨_, rfl, h⟩
        · simp [hp] at h2
        · exact ⟨_, rfl, rfl⟩
        · exact ⟨_, rfl, rfl⟩
    · rw [if_neg h1]
      by_cases h3 : g.ldims d ≤ pos d
      · rw [if_pos h3]
        by_cases h2 : (!g.atHi d || g.prt_hi d = .periodic) = true
        · rw [if_pos h2]
          simp only
          split_ifs
          · exact ⟨_, rfl, h⟩
          · exact ⟨_, rfl, h⟩
        · rw [if_neg h2]
          cases hp : g.prt_hi d
          · simp only
            split_ifs
            · exact ⟨_, rfl, h⟩
            · exact ⟨_, rfl, h⟩
          · simp [hp] at h2
          · exact ⟨_, rfl, rfl⟩
          · exact ⟨_, rfl, rfl⟩
      · rw [if_neg h3]
        exact ⟨_, rfl, h⟩
  obtain ⟨s', h1, h2⟩ := key
  refine ⟨s', ?_, h2⟩
  unfold stepD
  rw [h1]
  show clampStep g s' d = some s'
  unfold clampStep
  rw [if_pos h2]

theorem stepD_leave {g : PatchP K} (hg : g.Ok) {x : R3 K} {s : LoopS K A} {d : Fin 3}
    (h : LeftOpen g x d) :
    ∃ s', stepD g (fun d => cellPosition g.dxi (x d) d) s d = some s' ∧ s'.drop = true := by
  have key : ∃ s', bndStep g (fun d => cellPosition g.dxi (x d) d) s d = some s' ∧ s'.drop = true := by
    unfold bndStep
    simp only [cell_neg hg, cell_ge hg]
    rcases h with ⟨h1, h2, h3⟩ | ⟨h1, h2, h3⟩
    · rw [if_pos h1]
      rcases h3 with h3 | h3 <;> simp [h2, h3]
    · have hs := hg.size_pos d
      rw [if_neg (by linarith), if_pos h1]
      rcases h3 with h3 | h3 <;> simp [h2, h3]
  obtain ⟨s', h1, h2⟩ := key
  refine ⟨s', ?_, h2⟩
  unfold stepD
  rw [h1]
  show clampStep g s' d = some s'
  unfold clampStep
  rw [if_pos h2]

theorem upd_eq (s : LoopS K A) (d : Fin 3) (a b : K) (c : ℤ) :
    ((s.setX d a).setU d b).setDir d c =
      ⟨⟨Function.update s.prt.x d a, Function.update s.prt.u d b, s.prt.rest⟩, s.drop,
        Function.update s.dir d c⟩ := rfl

theorem stepD_stay {g : PatchP K} (hg : g.Ok) {x u : R3 K} {s : LoopS K A} {d : Fin 3} (hx : Near g x)
    (h : ¬ LeftOpen g x d) (hd : s.drop = false) (hsx : s.prt.x d = x d) (hsu : s.prt.u d = u d) :
    stepD g (fun d => cellPosition g.dxi (x d) d) s d = some (upd g x u s d) := by
  have hs := hg.size_pos d
  have hn := hx d
  have hmem := newX_mem hg hx d
  have hxs : Function.update s.prt.x d (x d) = s.prt.x := by rw [← hsx]; exact Function.update_eq_self d _
  have hus : Function.update s.prt.u d (u d) = s.prt.u := by rw [← hsu]; exact Function.update_eq_self d _
  have key : bndStep g (fun d => cellPosition g.dxi (x d) d) s d = some (upd g x u s d) := by
    unfold bndStep upd
    simp only [cell_neg hg, cell_ge hg, upd_eq]
    by_cases h1 : x d < 0
    · rw [if_pos h1]
      by_cases h2 : (!g.atLo d || g.prt_lo d = .periodic) = true
      · rw [if_pos h2]
        have e1 : newX g x d = x d + g.size d := by unfold newX; rw [if_pos h1, if_pos h2]
        have e2 : newU g x u d = u d := by unfold newU; rw [if_pos h1, if_pos h2]
        have e3 : newDir g x d = -1 := by unfold newDir; rw [if_pos h1, if_pos h2]
        simp only [LoopS.setX, LoopS.setDir, Function.update_self, hsx]
        rw [if_neg (by linarith), e1, e2, e3, hus]
      · rw [if_neg h2]
        have e1 : newX g x d = -x d := by unfold newX; rw [if_pos h1, if_neg h2]
        have e2 : newU g x u d = -u d := by unfold newU; rw [if_pos h1, if_neg h2]
        have e3 : newDir g x d = 0 := by unfold newDir; rw [if_pos h1, if_neg h2]
        simp only [Bool.or_eq_true, Bool.not_eq_true', decide_eq_true_eq, not_or, Bool.not_eq_false] at h2
        have hr : g.prt_lo d = .reflecting := by
          cases hp : g.prt_lo d
          · rfl
          · exact absurd hp h2.2
          · exact absurd (Or.inl ⟨h1, h2.1, Or.inl hp⟩) h
          · exact absurd (Or.inl ⟨h1, h2.1, Or.inr hp⟩) h
        rw [hr]
        simp only [upd_eq, hsx, hsu, e1, e2, e3]
    · rw [if_neg h1]
      by_cases h3 : g.size d ≤ x d
      · rw [if_pos h3]
        by_cases h2 : (!g.atHi d || g.prt_hi d = .periodic) = true
        · rw [if_pos h2]
          have e1 : newX g x d = x d - g.size d := by unfold newX; rw [if_neg h1, if_pos h3, if_pos h2]
          have e2 : newU g x u d = u d := by unfold newU; rw [if_neg h1, if_pos h3, if_pos h2]
          have e3 : newDir g x d = 1 := by unfold newDir; rw [if_neg h1, if_pos h3, if_pos h2]
          simp only [LoopS.setX, LoopS.setDir, Function.update_self, hsx]
          rw [if_neg (by linarith), e1, e2, e3, hus]
        · rw [if_neg h2]
          have e2 : newU g x u d = -u d := by unfold newU; rw [if_neg h1, if_pos h3, if_neg h2]
          have e3 : newDir g x d = 0 := by unfold newDir; rw [if_neg h1, if_pos h3, if_neg h2]
          have e1 : newX g x d = if x d = g.size d then g.size d * (1 - 1 / 1000000) else 2 * g.size d - x d := by
            unfold newX; rw [if_neg h1, if_pos h3, if_neg h2]
          simp only [Bool.or_eq_true, Bool.not_eq_true', decide_eq_true_eq, not_or, Bool.not_eq_false] at h2
          have hr : g.prt_hi d = .reflecting := by
            cases hp : g.prt_hi d
            · rfl
            · exact absurd hp h2.2
            · exact absurd (Or.inr ⟨h3, h2.1, Or.inl hp⟩) h
            · exact absurd (Or.inr ⟨h3, h2.1, Or.inr hp⟩) h
          rw [hr]
          simp only [LoopS.setX, LoopS.setU, LoopS.setDir, Function.update_self, hsx, hsu, e1, e2, e3,
            Function.update_idem]
          by_cases h5 : x d = g.size d
          · rw [if_pos (by linarith), if_pos h5, h5]
            congr 6; ring
          · rw [if_neg, if_neg h5]
            intro hle
            exact h5 (le_antisymm (by linarith) h3)
      · rw [if_neg h3]
        have e1 : newX g x d = x d := by unfold newX; rw [if_neg h1, if_neg h3]
        have e2 : newU g x u d = u d := by unfold newU; rw [if_neg h1, if_neg h3]
        have e3 : newDir g x d = 0 := by unfold newDir; rw [if_neg h1, if_neg h3]
        rw [e1, e2, e3, hxs, hus]
        rfl
  unfold stepD
  rw [key]
  show clampStep g (upd g x u s d) d = some (upd g x u s d)
  unfold clampStep
  have hd' : (upd g x u s d).drop = false := hd
  have hx' : (upd g x u s d).prt.x d = newX g x d := by
    simp [upd, upd_eq]
  rw [if_neg (by simp [hd'])]
  simp only [hx']
  have hnc : ¬ (newX g x d < 0 ∧ -(1 / 1000000) < newX g x d) := by intro hc; linarith [hc.1]
  simp only [hnc, if_false]
  rw [hx', if_pos ⟨hmem.1, hmem.2.le⟩]

theorem valid_iff {g : PatchP K} (hg : g.Ok) (x : R3 K) :
    isValidCellPosition g.ldims (fun d => cellPosition g.dxi (x d) d) = true ↔ Inside g x := by
  unfold isValidCellPosition Inside
  simp only [List.all_eq_true, List.mem_finRange, forall_const, Bool.not_eq_true', decide_eq_false_iff_not,
    cell_neg hg, cell_ge hg, not_or, not_lt, not_le]

theorem validCellIndex_inside {g : PatchP K} (hg : g.Ok) {x : R3 K} (hx : Inside g x) :
    ∃ i, validCellIndex g.dxi g.ldims x = some i := by
  have hv := (valid_iff hg x).2 hx
  unfold validCellIndex
  simp only
  unfold isValidCellPosition at hv
  rw [if_pos hv]
  have h := fun d => (cell_neg hg (x d) d).not.2 (not_lt.2 (hx d).1)
  have h' := fun d => (cell_ge hg (x d) d).not.2 (not_le.2 (hx d).2)
  have hi : 0 ≤ cellIndex g.ldims fun d => cellPosition g.dxi (x d) d := by
    unfold cellIndex
    rw [if_neg (by push Not; exact ⟨⟨not_lt.1 (h 0), not_le.1 (h' 0)⟩, ⟨not_lt.1 (h 1), not_le.1 (h' 1)⟩,
      ⟨not_lt.1 (h 2), not_le.1 (h' 2)⟩⟩)]
    have := not_lt.1 (h 0); have := not_lt.1 (h 1); have := not_lt.1 (h 2)
    have := (hg 0).1; have := (hg 1).1
    positivity
  exact ⟨_, if_pos hi⟩

theorem newX_inside {g : PatchP K} {x : R3 K} (hx : Inside g x) : newX g x = x := by
  funext d
  unfold newX
  rw [if_neg (not_lt.2 (hx d).1), if_neg (not_le.2 (hx d).2)]

theorem newU_inside {g : PatchP K} {x u : R3 K} (hx : Inside g x) : newU g x u = u := by
  funext d
  unfold newU
  rw [if_neg (not_lt.2 (hx d).1), if_neg (not_le.2 (hx d).2)]

theorem newDir_inside {g : PatchP K} {x : R3 K} (hx : Inside g x) : newDir g x = fun _ => 0 := by
  funext d
  unfold newDir
  rw [if_neg (not_lt.2 (hx d).1), if_neg (not_le.2 (hx d).2)]

/-- the fate of a particle near the patch -/
def fate (g : PatchP K) (prt : Prt K A) : Fate K A :=
  if Leaves g prt.x then .drop
  else if IsZero (newDir g prt.x) then .keep ⟨newX g prt.x, newU g prt.x prt.u, prt.rest⟩
  else .send (newDir g prt.x) ⟨newX g prt.x, newU g prt.x prt.u, prt.rest⟩

theorem foldlM3 {S : Type} (f : S → Fin 3 → Option S) (s : S) :
    (List.finRange 3).foldlM f s = (f s 0).bind fun s => (f s 1).bind fun s => f s 2 := by
  have : List.finRange 3 = [0, 1, 2] := rfl
  rw [this]
  simp only [List.foldlM_cons, List.foldlM_nil, Option.bind_eq_bind]
  congr 1; funext s; congr 1; funext s
  cases f s 2 <;> rfl

theorem process1_eq {g : PatchP K} (hg : g.Ok) {prt : Prt K A} (hx : Near g prt.x) :
    process1 g prt = some (fate g prt) := by
  obtain ⟨x, u, a⟩ := prt
  simp only at hx
  by_cases hin : Inside g x
  · unfold process1
    simp only
    rw [if_pos ((valid_iff hg x).2 hin)]
    unfold fate
    have hl : ¬ Leaves g x := by
      rintro ⟨d, h | h⟩
      · linarith [(hin d).1, h.1]
      · linarith [(hin d).2, h.1]
    simp only [hl, if_false, newDir_inside hin, newX_inside hin, newU_inside hin]
    have hz : IsZero (fun _ => 0) := ⟨rfl, rfl, rfl⟩
    simp only [hz, if_true]
  · unfold process1
    simp only
    rw [if_neg (fun h => hin ((valid_iff hg x).1 h))]
    rw [foldlM3]
    show ((stepD g _ _ 0).bind fun s => (stepD g _ s 1).bind fun s => stepD g _ s 2).bind _ = _
    by_cases hl : Leaves g x
    · have hf : fate g ⟨x, u, a⟩ = (.drop : Fate K A) := by unfold fate; rw [if_pos hl]
      rw [hf]
      have fin : ∃ s : LoopS K A, ((stepD g (fun d => cellPosition g.dxi (x d) d) ⟨⟨x, u, a⟩, false, fun _ => 0⟩ 0).bind fun s =>
          (stepD g (fun d => cellPosition g.dxi (x d) d) s 1).bind fun s =>
            stepD g (fun d => cellPosition g.dxi (x d) d) s 2) = some s ∧ s.drop = true := by
        by_cases h0 : LeftOpen g x 0
        · obtain ⟨s0, e0, d0⟩ := stepD_leave hg h0 (s := (⟨⟨x, u, a⟩, false, fun _ => 0⟩ : LoopS K A))
          obtain ⟨s1, e1, d1⟩ := stepD_drop (g := g) (pos := fun d => cellPosition g.dxi (x d) d) (d := 1) d0
          obtain ⟨s2, e2, d2⟩ := stepD_drop (g := g) (pos := fun d => cellPosition g.dxi (x d) d) (d := 2) d1
          exact ⟨s2, by rw [e0]; simp only [Option.bind_some]; rw [e1]; simp only [Option.bind_some]; exact e2, d2⟩
        · rw [stepD_stay hg hx h0 (u := u) rfl rfl rfl]
          simp only [Option.bind_some]
          by_cases h1 : LeftOpen g x 1
          · obtain ⟨s1, e1, d1⟩ := stepD_leave hg h1 (s := upd g x u ⟨⟨x, u, a⟩, false, fun _ => 0⟩ 0)
            obtain ⟨s2, e2, d2⟩ := stepD_drop (g := g) (pos := fun d => cellPosition g.dxi (x d) d) (d := 2) d1
            exact ⟨s2, by rw [e1]; simp only [Option.bind_some]; exact e2, d2⟩
          · rw [stepD_stay hg hx h1 (u := u) rfl (by simp [upd, upd_eq]) (by simp [upd, upd_eq])]
            simp only [Option.bind_some]
            have h2 : LeftOpen g x 2 := by
              obtain ⟨d, hd⟩ := hl
              fin_cases d
              · exact absurd hd h0
              · exact absurd hd h1
              · exact hd
            exact stepD_leave hg h2
      obtain ⟨s, hs, hd⟩ := fin
      rw [hs]
      simp only [Option.bind_some, hd, if_true]
      rfl
    · have hl' : ∀ d, ¬ LeftOpen g x d := fun d hd => hl ⟨d, hd⟩
      rw [stepD_stay hg hx (hl' 0) (u := u) rfl rfl rfl]
      simp only [Option.bind_some]
      rw [stepD_stay hg hx (hl' 1) (u := u) rfl (by simp [upd, upd_eq]) (by simp [upd, upd_eq])]
      simp only [Option.bind_some]
      rw [stepD_stay hg hx (hl' 2) (u := u) rfl (by simp [upd, upd_eq]) (by simp [upd, upd_eq])]
      simp only [Option.bind_some]
      have e : upd g x u (upd g x u (upd g x u ⟨⟨x, u, a⟩, false, fun _ => 0⟩ 0) 1) 2 =
          (⟨⟨newX g x, newU g x u, a⟩, false, newDir g x⟩ : LoopS K A) := by
        simp only [upd, upd_eq, LoopS.mk.injEq, Prt.mk.injEq, and_true, true_and]
        refine ⟨⟨?_, ?_⟩, ?_⟩ <;> funext d <;> fin_cases d <;> simp [Function.update]
      rw [e]
      unfold fate
      rw [if_neg hl]
      simp only [Bool.false_eq_true, if_false]
      by_cases hz : IsZero (newDir g x)
      · rw [if_pos hz]
        have hz' : newDir g x 0 = 0 ∧ newDir g x 1 = 0 ∧ newDir g x 2 = 0 := hz
        rw [if_pos hz']
        obtain ⟨i, hi⟩ := validCellIndex_inside hg (x := newX g x) (newX_mem hg hx)
        rw [hi]
        rfl
      · rw [if_neg hz]
        have hz' : ¬ (newDir g x 0 = 0 ∧ newDir g x 1 = 0 ∧ newDir g x 2 = 0) := hz
        rw [if_neg hz']
        rfl

end Psc.Bndp
