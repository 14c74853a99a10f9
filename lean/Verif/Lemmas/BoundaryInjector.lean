import Verif.Lemmas.Push
import Verif.Lemmas.Fields
import Verif.Spec.BoundaryInjector
import Verif.Spec.Continuity

namespace Psc.BndInj

open Push Spec Fields

noncomputable section

theorem calc_v_vy (u : R3 ℝ) : calc_v u 1 = vy u := by
  unfold calc_v vy rsqrt
  rw [show 1 + u 0 * u 0 + u 1 * u 1 + u 2 * u 2 = 1 + (u 0 ^ 2 + u 1 ^ 2 + u 2 ^ 2) by ring]
  ring

theorem push_x_movedTo (dt : ℝ) (a : Inject) : push_x dim_y dt a.x (calc_v a.u) = movedTo dt a := by
  funext d
  unfold push_x dim_y movedTo
  fin_cases d
  · simp
  · simp [calc_v_vy]
  · simp

theorem vy_lt (u : R3 ℝ) : |vy u| < 1 := by rw [← calc_v_vy]; exact calc_v_lt u 1

theorem moved_inside {P : Params} {ldims : I3} {a : Inject} (hdt : 0 < P.dt) (hdx : ∀ d, 0 < P.dx d) (hc : P.dt ≤ P.dx 1)
    (hl : ∀ d, 0 < ldims d) (ha : InLayer P.dx ldims a) (he : Enters P.dt a) (d : Fin 3) :
    0 ≤ movedTo P.dt a d ∧ movedTo P.dt a d < ldims d * P.dx d := by
  obtain ⟨h0, h1, h2⟩ := ha
  have hv := abs_lt.1 (vy_lt a.u)
  have hy : a.x 1 + P.dt * vy a.u < P.dx 1 := by nlinarith [hv.2]
  have hl1 : (1 : ℝ) ≤ ldims 1 := by exact_mod_cast hl 1
  have hy2 : P.dx 1 ≤ ldims 1 * P.dx 1 := by nlinarith [hdx 1]
  unfold Enters at he
  fin_cases d
  · simpa [movedTo] using h0
  · simp only [movedTo, Fin.mk_one, Fin.isValue, Matrix.cons_val] at he ⊢
    exact ⟨he, lt_of_lt_of_le hy hy2⟩
  · simpa [movedTo] using h2

theorem attempt_enter (c : Config) {P : Params} {ldims : I3} {a : Inject} (hdt : 0 < P.dt) (hdx : ∀ d, 0 < P.dx d)
    (hc : P.dt ≤ P.dx 1) (hl : ∀ d, 0 < ldims d) (ha : InLayer P.dx ldims a) (he : Enters P.dt a) :
    attempt c P ldims a = some ([entered P a], c.current P (a.w * P.q a.kind) (calc_v a.u)
      (fun d => a.x d * (1 / P.dx d)) (fun d => movedTo P.dt a d * (1 / P.dx d))) := by
  have hin := moved_inside hdt hdx hc hl ha he
  have hin' : ∀ d, 0 ≤ movedTo P.dt a d ∧ movedTo P.dt a d ≤ ldims d * P.dx d := fun d => ⟨(hin d).1, (hin d).2.le⟩
  have hne : ¬ movedTo P.dt a 1 < 0 := not_lt.2 he
  simp only [attempt, push_x_movedTo, if_neg hne, injector, if_pos (And.intro (hin' 0) (And.intro (hin' 1) (hin' 2))),
    Option.bind_eq_bind, Option.bind_some, entered, mul_comm (P.q a.kind)]

theorem attempt_skip (c : Config) {P : Params} (ldims : I3) {a : Inject} (he : ¬ Enters P.dt a) :
    attempt c P ldims a = some ([], []) := by
  have hne : movedTo P.dt a 1 < 0 := not_le.1 he
  simp only [attempt, push_x_movedTo, if_pos hne]

theorem attempts_spec (c : Config) (P : Params) (ldims : I3) (act : Fin 3 → Bool)
    (den : ℝ → R3 ℝ → ℤ → ℤ → ℤ → ℝ) (hdt : 0 < P.dt) (hdx : ∀ d, 0 < P.dx d) (hc : P.dt ≤ P.dx 1)
    (hl : ∀ d, 0 < ldims d)
    (hone : ∀ (qw : ℝ) (v xm xp : R3 ℝ), (∀ d, |v d| < 1) → (∀ d, act d = true → |xp d - xm d| < 1) →
      Continuity act P.dx P.dt (den (P.fnqs * qw) xm) (den (P.fnqs * qw) xp) (fieldOf (c.current P qw v xm xp)))
    (l : List Inject) (hin : ∀ a ∈ l, InLayer P.dx ldims a) (hq : ∀ a ∈ l, P.q a.kind ≠ 0) :
    ∃ J, attempts c P ldims l = some ((entering P l).map (entered P), J) ∧
      Continuity act P.dx P.dt (sumRho den P ((entering P l).map (imaginary P)))
        (sumRho den P ((entering P l).map (entered P))) (fieldOf J) := by
  induction l with
  | nil =>
    refine ⟨[], rfl, ?_⟩
    intro i j k
    simp [entering, sumRho, Spec.div, fieldOf_nil]
  | cons a l ih =>
    obtain ⟨J, hJ, hcont⟩ := ih (fun a h => hin a (List.mem_cons_of_mem _ h)) (fun a h => hq a (List.mem_cons_of_mem _ h))
    have ha := hin a List.mem_cons_self
    have hqa := hq a List.mem_cons_self
    by_cases he : Enters P.dt a
    · have hent : entering P (a :: l) = a :: entering P l := by
        unfold entering; rw [List.filter_cons, if_pos (by simpa using he)]
      refine ⟨c.current P (a.w * P.q a.kind) (calc_v a.u)
          (fun d => a.x d * (1 / P.dx d)) (fun d => movedTo P.dt a d * (1 / P.dx d)) ++ J, ?_, ?_⟩
      · simp only [attempts, attempt_enter c hdt hdx hc hl ha he, hJ, Option.bind_eq_bind, Option.bind_some, hent,
          List.map_cons, List.singleton_append]
      · intro i j k
        have h1 := hone (a.w * P.q a.kind) (calc_v a.u) (fun d => a.x d * (1 / P.dx d))
          (fun d => movedTo P.dt a d * (1 / P.dx d)) (calc_v_lt _) (by
            intro d _
            fin_cases d
            · simp [movedTo]
            · have := move_short (x := a.x 1) (dt := P.dt) (dx := P.dx 1) (vy_lt a.u) hdt hc
              simpa [movedTo] using this
            · simp [movedTo]) i j k
        have h2 := hcont i j k
        have e0 : charge P (imaginary P a) = a.w * P.q a.kind := by unfold charge imaginary; field_simp
        have e1 : charge P (entered P a) = a.w * P.q a.kind := by unfold charge entered; field_simp
        simp only [hent, sumRho, List.map_cons, List.sum_cons, div_add', e0, e1] at h2 ⊢
        simp only [imaginary, entered] at h2 ⊢
        linear_combination h1 + h2
    · have hent : entering P (a :: l) = entering P l := by
        unfold entering; rw [List.filter_cons, if_neg (by simpa using he)]
      refine ⟨J, ?_, ?_⟩
      · simp only [attempts, attempt_skip c ldims he, hJ, Option.bind_eq_bind, Option.bind_some, hent, List.nil_append]
      · rw [hent]; exact hcont

/-- Particles below the boundary do not contribute to nodes above it. -/
theorem tentRho_above (act : Fin 3 → Bool) (h1 : act 1 = true) (q : ℝ) (x : R3 ℝ) (hx : x 1 ≤ 0) (i j k : ℤ) (hj : 1 ≤ j) :
    tentRho act q x i j k = 0 := by
  have hj' : (1 : ℝ) ≤ j := by exact_mod_cast hj
  have : tent (x 1 - j) = 0 := by
    unfold tent
    rw [abs_of_nonpos (by linarith)]
    exact max_eq_left (by linarith)
  unfold tentRho
  rw [if_pos h1, this]; ring

theorem sumRho_above (act : Fin 3 → Bool) (h1 : act 1 = true) (P : Params) (hdx : 0 < P.dx 1) (l : List Prt)
    (hl : ∀ p ∈ l, p.x 1 ≤ 0) (i j k : ℤ) (hj : 1 ≤ j) : sumRho (tentRho act) P l i j k = 0 := by
  unfold sumRho
  apply List.sum_eq_zero
  intro y hy
  obtain ⟨p, hp, rfl⟩ := List.mem_map.1 hy
  apply tentRho_above act h1 _ _ _ _ _ _ hj
  have := hl p hp
  have h2 : 0 < 1 / P.dx 1 := by positivity
  nlinarith

theorem mem_cells (ldims idx : I3) : idx ∈ cells ldims ↔
    (0 ≤ idx 0 ∧ idx 0 < ldims 0) ∧ idx 1 = -1 ∧ (0 ≤ idx 2 ∧ idx 2 < ldims 2) := by
  unfold cells
  simp only [List.mem_flatMap, List.mem_map, mem_rng]
  constructor
  · rintro ⟨i, hi, j, hj, k, hk, rfl⟩
    simp only [Matrix.cons_val]
    refine ⟨hi, by omega, hk⟩
  · rintro ⟨h0, h1, h2⟩
    refine ⟨idx 0, h0, -1, by omega, idx 2, h2, ?_⟩
    funext d; fin_cases d
    · rfl
    · exact h1.symm
    · rfl

theorem generated_inLayer (P : Params) (ldims : I3) (kind : ℕ) (draws : I3 → List Draw) (hdx : ∀ d, 0 < P.dx d)
    (hr : ∀ idx, ∀ d ∈ draws idx, ∀ e, 0 ≤ d.r e ∧ d.r e < 1) :
    ∀ a ∈ generated P ldims kind draws, InLayer P.dx ldims a ∧ a.kind = kind := by
  intro a ha
  unfold generated at ha
  obtain ⟨idx, hidx, ha⟩ := List.mem_flatMap.1 ha
  obtain ⟨d, hd, rfl⟩ := List.mem_map.1 ha
  obtain ⟨h0, h1, h2⟩ := (mem_cells ldims idx).1 hidx
  have r := hr idx d hd
  refine ⟨⟨?_, ?_, ?_⟩, rfl⟩
  · have l0 : (0 : ℝ) ≤ idx 0 := by exact_mod_cast h0.1
    have l1 : (idx 0 : ℝ) + 1 ≤ ldims 0 := by exact_mod_cast h0.2
    have := hdx 0
    simp only [generate]
    constructor
    · nlinarith [r 0]
    · nlinarith [(r 0).1, (r 0).2]
  · have := hdx 1
    simp only [generate, h1]
    push_cast
    constructor
    · nlinarith [(r 1).1]
    · nlinarith [(r 1).2]
  · have l0 : (0 : ℝ) ≤ idx 2 := by exact_mod_cast h2.1
    have l1 : (idx 2 : ℝ) + 1 ≤ ldims 2 := by exact_mod_cast h2.2
    have := hdx 2
    simp only [generate]
    constructor
    · nlinarith [r 2]
    · nlinarith [(r 2).1, (r 2).2]

/-- The cell index handed to `calc_j` is the one of the initial position. -/
theorem generated_index (dx r : R3 ℝ) (u : R3 ℝ) (kind : ℕ) (idx : I3) (d : Fin 3) (hdx : 0 < dx d) (h0 : 0 ≤ r d)
    (h1 : r d < 1) :
    ⌊(generate r u kind (fun e => (idx e : ℝ) * dx e) dx).x d * (1 / dx d)⌋ = idx d := by
  rw [Int.floor_eq_iff]
  have e : (generate r u kind (fun e => (idx e : ℝ) * dx e) dx).x d * (1 / dx d) = idx d + r d := by
    simp only [generate]; field_simp
  rw [e]
  constructor <;> linarith

end

end Psc.BndInj
