import Verif.Spec.Moments
import Verif.Lemmas.Serial
import Verif.Lemmas.Energy
import Verif.Lemmas.BndFields
import Verif.Props.Reflecting

/-!
# Moments: from the accumulations on each patch to the density on the undivided domain
-/

namespace Psc.Moments

open Domain Ddc FieldStep Spec Pic

noncomputable section

/-! ### Depositions -/

theorem dep_share (C : Code) (x : R3 ℝ) (v : ℝ) (n : I3) :
    fieldOf (C.dep x v) 0 (n 0) (n 1) (n 2) = v * C.share x n := by
  have t : ∀ act q (x : R3 ℝ) i j k, tentRho act q x i j k = q * tentRho act 1 x i j k := by
    intro act q x i j k; unfold tentRho; ring
  have s : ∀ act q (x : R3 ℝ) i j k, splineRho act q x i j k = q * splineRho act 1 x i j k := by
    intro act q x i j k; unfold splineRho; ring
  cases C
  · exact (Props.nc1_xyz_eq_tent (fun d => x d - 1/2) v _ _ _).trans (t _ _ _ _ _ _)
  · exact (Props.nc1_yz_eq_tent (fun d => x d - 1/2) v _ _ _).trans (t _ _ _ _ _ _)
  · exact (Props.nc1_xyz_eq_tent x v _ _ _).trans (t _ _ _ _ _ _)
  · exact (Props.nc1_yz_eq_tent x v _ _ _).trans (t _ _ _ _ _ _)
  · exact (Props.nc2_xyz_eq_spline x v _ _ _).trans (s _ _ _ _ _ _)
  · exact (Props.nc2_yz_eq_spline x v _ _ _).trans (s _ _ _ _ _ _)

theorem share_cov (C : Code) (x : R3 ℝ) (s n : I3) (hs : ∀ d, C.act d = false → s d = 0) :
    C.share (fun d => x d + s d) (fun d => s d + n d) = C.share x n := by
  have e : (fun d => x d + (s d : ℝ) - 1/2) = fun d => (x d - 1/2) + s d := by funext d; ring
  cases C
  · simp only [Code.share, e]; rw [tentRho_cov _ _ _ _ hs]; simp
  · simp only [Code.share, e]; rw [tentRho_cov _ _ _ _ hs]; simp
  · simp only [Code.share]; rw [tentRho_cov _ _ _ _ hs]; simp
  · simp only [Code.share]; rw [tentRho_cov _ _ _ _ hs]; simp
  · simp only [Code.share]; rw [splineRho_cov _ _ _ _ hs]; simp
  · simp only [Code.share]; rw [splineRho_cov _ _ _ _ hs]; simp

theorem dep_m (C : Code) (x : R3 ℝ) (v : ℝ) : ∀ e ∈ C.dep x v, e.m = 0 := by
  cases C <;>
    simp [Code.dep, Deposit.cc1_xyz, Deposit.cc1_yz, Deposit.nc1_xyz, Deposit.nc1_yz, Deposit.nc2_xyz, Deposit.nc2_yz,
      Deposit.first_xyz, Deposit.first_yz, Deposit.second_xyz, Deposit.second_yz]

theorem dep_sum (C : Code) (x : R3 ℝ) (v : ℝ) : ((C.dep x v).map (·.v)).sum = v := by
  cases C <;>
    simp only [Code.dep, Deposit.cc1_xyz, Deposit.cc1_yz, Deposit.nc1_xyz, Deposit.nc1_yz, Deposit.nc2_xyz, Deposit.nc2_yz,
      Deposit.first_xyz, Deposit.first_yz, Deposit.second_xyz, Deposit.second_yz, Deposit.gm, Deposit.g0, Deposit.g1,
      List.map_cons, List.map_nil, List.sum_cons, List.sum_nil] <;> ring

/-- where a particle in a box is deposited -/
structure DepIn (C : Code) (L n : I3) : Prop where
  lo : ∀ d, C.act d = true → -C.width ≤ n d
  nc : C.isCC = false → ∀ d, C.act d = true → -C.width < n d
  hi : ∀ d, C.act d = true → n d < L d + C.width
  inv : ∀ d, C.act d = false → n d = 0

theorem dep_in (C : Code) (L : I3) (x : R3 ℝ) (v : ℝ) (h : ∀ d, 0 ≤ x d ∧ x d < L d) :
    ∀ e ∈ C.dep x v, DepIn C L (at_ e) := by
  have fl : ∀ d, -1 ≤ ⌊x d - 1/2⌋ ∧ ⌊x d - 1/2⌋ < L d := by
    intro d
    have := h d
    refine ⟨Int.le_floor.2 (by push_cast; linarith), Int.floor_lt.2 (by linarith)⟩
  have hin : ∀ (lo hi : I3) (evs : List (Add ℝ)), EvIn lo hi evs → (∀ d, C.act d = true → -C.width ≤ lo d) →
      (C.isCC = false → ∀ d, C.act d = true → -C.width < lo d) → (∀ d, C.act d = true → hi d < L d + C.width) →
      (∀ d, C.act d = false → lo d = 0 ∧ hi d = 0) → ∀ e ∈ evs, DepIn C L (at_ e) := by
    intro lo hi evs H h1 h2 h3 h4 e he
    have := H e he
    have k : ∀ d, lo d ≤ at_ e d ∧ at_ e d ≤ hi d := by
      intro d; fin_cases d
      · exact ⟨this.1.1, this.1.2⟩
      · exact ⟨this.2.1.1, this.2.1.2⟩
      · exact ⟨this.2.2.1, this.2.2.2⟩
    refine ⟨fun d hd => ?_, fun hc d hd => ?_, fun d hd => ?_, fun d hd => ?_⟩
    · have := h1 d hd; have := k d; omega
    · have := h2 hc d hd; have := k d; omega
    · have := h3 d hd; have := k d; omega
    · have := h4 d hd; have := k d; omega
  have hL : ∀ d, 0 < L d := by
    intro d; have := h d; have : (0:ℝ) < L d := by linarith
    exact_mod_cast this
  have no : ∀ d, xyz d = false → False := by intro d hd; revert hd; fin_cases d <;> decide
  cases C
  · refine hin (fun _ => -1) L _ ?_ (by simp [Code.width]) (by simp [Code.isCC]) (by simp [Code.width])
      (fun d hd => (no d hd).elim)
    have a0 := fl 0; have a1 := fl 1; have a2 := fl 2
    intro e he
    simp only [Code.dep, Deposit.cc1_xyz, Deposit.first_xyz, List.mem_cons, List.not_mem_nil, or_false] at he
    rcases he with h | h | h | h | h | h | h | h <;> subst h <;> simp only <;> omega
  · refine hin ![0, -1, -1] ![0, L 1, L 2] _ ?_ ?_ (by simp [Code.isCC]) ?_ ?_
    · have a1 := fl 1; have a2 := fl 2
      intro e he
      simp only [Code.dep, Deposit.cc1_yz, Deposit.first_yz, List.mem_cons, List.not_mem_nil, or_false] at he
      rcases he with h | h | h | h <;> subst h <;>
        simp only [Matrix.cons_val_zero, Matrix.cons_val_one, Matrix.cons_val] <;> omega
    all_goals intro d hd; revert hd; fin_cases d <;> simp [Code.act, yz, Code.width]
  · exact hin (fun _ => 0) L _ (Deposit.nc1_xyz_in x v h) (by simp [Code.width]) (by simp [Code.width]) (by simp [Code.width])
      (fun d hd => (no d hd).elim)
  · refine hin (fun _ => 0) ![0, L 1, L 2] _ (Deposit.nc1_yz_in (n := L) (hL 0).le x v fun d _ => h d) (by simp [Code.width])
      (by simp [Code.width]) ?_ ?_
    all_goals intro d hd; revert hd; fin_cases d <;> simp [Code.act, yz, Code.width]
  · exact hin _ _ _ (Deposit.nc2_xyz_in x v h) (by simp [Code.width]) (by simp [Code.width]) (by simp [Code.width])
      (fun d hd => (no d hd).elim)
  · refine hin _ _ _ (Deposit.nc2_yz_in x v fun d _ => h d) ?_ (fun _ => ?_) ?_ ?_
    all_goals intro d hd; revert hd; fin_cases d <;> simp [Code.act, yz, Code.width]

theorem share_in (C : Code) (L : I3) (x : R3 ℝ) (h : ∀ d, 0 ≤ x d ∧ x d < L d) {n : I3} (hn : C.share x n ≠ 0) :
    DepIn C L n := by
  by_contra hne
  apply hn
  have e := dep_share C x 1 n
  rw [one_mul] at e
  rw [← e]
  unfold fieldOf
  apply List.sum_eq_zero
  intro y hy
  obtain ⟨ev, hev, rfl⟩ := List.mem_map.1 hy
  rw [if_neg]
  rintro ⟨-, h0, h1, h2⟩
  exact hne ((eq_at ev n).1 ⟨h0, h1, h2⟩ ▸ dep_in C L x 1 h ev hev)

theorem share_sum (C : Code) (L : I3) (x : R3 ℝ) (h : ∀ d, 0 ≤ x d ∧ x d < L d) (S : Finset I3)
    (hS : ∀ n, DepIn C L n → n ∈ S) : ∑ n ∈ S, C.share x n = 1 := by
  have := Pic.sum_fieldOf (C.dep x 1) 0 (fun _ => 1) S fun e he _ => hS _ (dep_in C L x 1 h e he)
  simp only [dep_share, one_mul] at this
  rw [this]
  refine Eq.trans ?_ (dep_sum C x 1)
  unfold W
  refine congrArg List.sum (List.map_congr_left fun e he => ?_)
  rw [if_pos (dep_m C x 1 e he), one_mul]

/-! ### Components -/

theorem vxi_eq (q : Push.Prt) (d : Fin 3) : vxi q d = velocity q d := by
  have e : 1 + q.u 0 * q.u 0 + q.u 1 * q.u 1 + q.u 2 * q.u 2 = 1 + ∑ e, q.u e ^ 2 := by
    rw [Fin.sum_univ_three]; ring
  unfold vxi velocity
  rw [← e]
  fin_cases d <;> simp [div_eq_mul_inv]

theorem flatMap_get {α β γ : Type} (l : List α) (t : List β) (g : α → β → γ) (ht : 0 < t.length) (m : ℕ) :
    (l.flatMap fun a => t.map (g a))[m]? = (l[m / t.length]?).bind fun a => (t[m % t.length]?).map (g a) := by
  induction l generalizing m with
  | nil => simp
  | cons a l ih =>
    rw [List.flatMap_cons, List.getElem?_append]
    by_cases h : m < t.length
    · rw [if_pos (by simpa using h), Nat.div_eq_of_lt h, Nat.mod_eq_of_lt h]
      simp
    · rw [if_neg (by simpa using h), ih, List.length_map]
      have h1 : m / t.length = (m - t.length) / t.length + 1 := by
        rw [← Nat.sub_add_cancel (not_lt.1 h), Nat.add_div_right _ ht, Nat.add_sub_cancel]
      have h2 : m % t.length = (m - t.length) % t.length := (Nat.mod_eq_sub_mod (not_lt.1 h))
      rw [h1, List.getElem?_cons_succ, h2]

theorem perKind_get (t : List (String × Quantity)) (kinds : List String) (ht : 0 < t.length) (m : ℕ) :
    (perKind t kinds)[m]? = (kinds[m / t.length]?).bind fun name => (t[m % t.length]?).map fun c =>
      ⟨c.1 ++ "_" ++ name, fun q => q.kind = m / t.length, c.2⟩ := by
  unfold perKind
  rw [flatMap_get (kinds.zipIdx) t _ ht, List.getElem?_zipIdx]
  cases kinds[m / t.length]? <;> simp

/-- contribution of particle `q` to component `m` -/
def valOf (M : Moment) (P : Push.Params) (kinds : List String) (m : ℕ) (q : Push.Prt) : ℝ :=
  ((M.components kinds)[m]?).elim 0 fun c => if c.of q then c.what.of P q else 0

theorem sum_zipIdx {α : Type} (t : List α) (f : α → ℝ) (i s : ℕ) :
    ((t.zipIdx s).map fun c => if c.2 = s + i then f c.1 else 0).sum = (t[i]?).elim 0 f := by
  induction t generalizing i s with
  | nil => simp
  | cons a t ih =>
    rw [List.zipIdx_cons, List.map_cons, List.sum_cons]
    cases i with
    | zero =>
      have z : ((t.zipIdx (s + 1)).map fun c => if c.2 = s + 0 then f c.1 else 0).sum = 0 := by
        apply List.sum_eq_zero
        intro y hy
        obtain ⟨c, hc, rfl⟩ := List.mem_map.1 hy
        have := List.le_snd_of_mem_zipIdx hc
        rw [if_neg (by omega)]
      rw [z]; simp
    | succ i =>
      have := ih i (s + 1)
      rw [show s + (i + 1) = s + 1 + i by omega, this]
      rw [if_neg (by simp only; omega)]; simp

theorem calls_perKind (t : List (String × Quantity)) (kinds : List String) (ht : 0 < t.length) (P : Push.Params) (q : Push.Prt)
    (hq : q.kind < kinds.length) (m : ℕ) (l : List (ℕ × ℝ))
    (hl : l = t.zipIdx.map fun c => (c.2 + t.length * q.kind, c.1.2.of P q)) :
    (l.map fun c => if c.1 = m then c.2 else 0).sum =
      ((perKind t kinds)[m]?).elim 0 fun c => if c.of q then c.what.of P q else 0 := by
  rw [perKind_get t kinds ht, hl, List.map_map]
  by_cases h : m / t.length = q.kind
  · have e : m = m % t.length + t.length * q.kind := by rw [← h]; exact (Nat.mod_add_div m _).symm
    have : (fun c : ℕ × ℝ => if c.1 = m then c.2 else 0) ∘ (fun c : (String × Quantity) × ℕ =>
        (c.2 + t.length * q.kind, c.1.2.of P q)) = fun c => if c.2 = 0 + m % t.length then c.1.2.of P q else 0 := by
      funext c
      simp only [Function.comp]
      refine if_congr ?_ rfl rfl
      omega
    rw [this, sum_zipIdx t (fun c => c.2.of P q) (m % t.length) 0, h, List.getElem?_eq_getElem hq]
    cases t[m % t.length]? <;> simp
  · have z : (List.map ((fun c : ℕ × ℝ => if c.1 = m then c.2 else 0) ∘ (fun c : (String × Quantity) × ℕ =>
        (c.2 + t.length * q.kind, c.1.2.of P q))) t.zipIdx).sum = 0 := by
      apply List.sum_eq_zero
      intro y hy
      obtain ⟨c, hc, rfl⟩ := List.mem_map.1 hy
      have := List.snd_lt_of_mem_zipIdx hc
      simp only [Function.comp]
      rw [if_neg]
      rintro rfl
      apply h
      rw [Nat.add_mul_div_left _ _ ht, Nat.div_eq_of_lt (by simpa using this), zero_add]
    rw [z]
    cases kinds[m / t.length]? <;> cases t[m % t.length]? <;> simp
    exact fun hh => absurd hh.symm h

theorem calls_val (M : Moment) (P : Push.Params) (kinds : List String) (q : Push.Prt) (hq : q.kind < kinds.length) (m : ℕ) :
    ((M.calls P q (weight P q)).map fun c => if c.1 = m then c.2 else 0).sum = valOf M P kinds m q := by
  cases M
  · refine calls_perKind _ kinds (by simp) P q hq m _ ?_
    simp [Moment.calls, Quantity.of]
  · simp only [Moment.calls, valOf, Moment.components, List.map_cons, List.map_nil, List.sum_cons, List.sum_nil]
    cases m <;> simp [Quantity.of]
  · refine calls_perKind _ kinds (by simp) P q hq m _ ?_
    simp [Moment.calls, Quantity.of, List.finRange_succ, vxi_eq]
  · refine calls_perKind _ kinds (by simp) P q hq m _ ?_
    simp [Moment.calls, Quantity.of, List.finRange_succ]
  · refine calls_perKind _ kinds (by simp) P q hq m _ ?_
    simp [Moment.calls, Quantity.of, vxi_eq, Nat.mul_comm, Nat.add_comm]

theorem comp_names_eq (M : Moment) (kinds : List String) : M.comp_names kinds = (M.components kinds).map (·.name) := by
  have k : ∀ (t : List (String × Quantity)) (l : List String) (s : ℕ),
      l.flatMap (fun k => (t.map Prod.fst).map fun m => m ++ "_" ++ k) =
      ((l.zipIdx s).flatMap fun kind => t.map fun c => (⟨c.1 ++ "_" ++ kind.1, fun q => q.kind = kind.2, c.2⟩ : Component)).map
        (·.name) := by
    intro t l
    induction l with
    | nil => intro s; rfl
    | cons a l ih =>
      intro s
      rw [List.flatMap_cons, List.zipIdx_cons, List.flatMap_cons, List.map_append, ih (s + 1)]
      simp [Function.comp_def]
  cases M
  · exact k [("n", .number)] kinds 0
  · rfl
  · exact k [("vx", .velocity 0), ("vy", .velocity 1), ("vz", .velocity 2)] kinds 0
  · exact k [("px", .momentum 0), ("py", .momentum 1), ("pz", .momentum 2)] kinds 0
  · exact k [("rho", .charge), ("jx", .current 0), ("jy", .current 1), ("jz", .current 2),
      ("px", .momentum 0), ("py", .momentum 1), ("pz", .momentum 2),
      ("txx", .stress 0 0), ("tyy", .stress 1 1), ("tzz", .stress 2 2),
      ("txy", .stress 0 1), ("tyz", .stress 1 2), ("tzx", .stress 2 0)] kinds 0

theorem n_comps_eq (G : Grid) (M : Moment) : n_comps G M = (M.components G.kinds).length := by
  unfold n_comps; rw [comp_names_eq, List.length_map]

theorem perKind_length (t : List (String × Quantity)) (kinds : List String) : (perKind t kinds).length = kinds.length * t.length := by
  unfold perKind
  simp [List.length_flatMap]

theorem calls_lt (M : Moment) (G : Grid) (q : Push.Prt) (w : ℝ) (hq : q.kind < G.kinds.length) :
    ∀ c ∈ M.calls G.P q w, c.1 < n_comps G M := by
  rw [n_comps_eq]
  intro c hc
  cases M <;> simp only [Moment.components, perKind_length, List.length_cons, List.length_nil]
  · simp only [Moment.calls, List.mem_singleton] at hc; subst hc; simp; exact hq
  · simp only [Moment.calls, List.mem_singleton] at hc; subst hc; simp
  · obtain ⟨i, -, rfl⟩ := List.mem_map.1 hc; simp only; omega
  · obtain ⟨i, -, rfl⟩ := List.mem_map.1 hc; simp only; omega
  · simp only [Moment.calls, List.mem_cons, List.not_mem_nil, or_false] at hc
    rcases hc with h|h|h|h|h|h|h|h|h|h|h|h|h <;> subst h <;> simp only <;> omega

/-! ### One patch -/

theorem accumulate_eq (G : Grid) (M : Moment) (C : Code) (ps : List Push.Prt) (h : ∀ q ∈ ps, G.P.q q.kind ≠ 0) :
    accumulate G M C ps = some (ps.flatMap fun q => (M.calls G.P q (weight G.P q)).flatMap fun mv =>
      (Deposit.code C.dep G.P.dx G.P.fnqs q.x mv.2).map fun e => (mv.1, e)) := by
  induction ps with
  | nil => rfl
  | cons q ps ih =>
    unfold accumulate
    rw [ih fun q hq => h q (List.mem_cons_of_mem _ hq), prt_w, if_neg (h q List.mem_cons_self), List.flatMap_cons]
    rfl

theorem valuesOf_append (l l' : List (ℕ × Add ℝ)) (mn : ℕ × I3) : valuesOf (l ++ l') mn = valuesOf l mn + valuesOf l' mn := by
  simp [valuesOf]

theorem valuesOf_flatMap {α : Type} (l : List α) (f : α → List (ℕ × Add ℝ)) (mn : ℕ × I3) :
    valuesOf (l.flatMap f) mn = (l.map fun a => valuesOf (f a) mn).sum := by
  induction l with
  | nil => simp [valuesOf]
  | cons a l ih => rw [List.flatMap_cons, valuesOf_append, ih, List.map_cons, List.sum_cons]

theorem valuesOf_one (k m : ℕ) (n : I3) (l : List (Add ℝ)) (hl : ∀ e ∈ l, e.m = 0) :
    valuesOf (l.map fun e => (k, e)) (m, n) = if k = m then fieldOf l 0 (n 0) (n 1) (n 2) else 0 := by
  unfold valuesOf fieldOf
  rw [List.map_map]
  by_cases h : k = m
  · rw [if_pos h]
    refine congrArg List.sum (List.map_congr_left fun e he => ?_)
    simp only [Function.comp, h, hl e he, true_and]
  · rw [if_neg h]
    apply List.sum_eq_zero
    intro y hy
    obtain ⟨e, -, rfl⟩ := List.mem_map.1 hy
    simp [h]

theorem sum_mul_right' {α : Type} (l : List α) (f : α → ℝ) (a : ℝ) : (l.map fun x => f x * a).sum = (l.map f).sum * a := by
  induction l with
  | nil => simp
  | cons b l ih => simp only [List.map_cons, List.sum_cons, ih]; ring

/-- position in units of the cells -/
def norm (G : Grid) (x : R3 ℝ) : R3 ℝ := fun d => x d / G.P.dx d

theorem norm_in {G : Grid} (hdx : ∀ d, 0 < G.P.dx d) {x : R3 ℝ} {L : I3} (h : ∀ d, 0 ≤ x d ∧ x d < L d * G.P.dx d) :
    ∀ d, 0 ≤ norm G x d ∧ norm G x d < L d :=
  fun d => ⟨div_nonneg (h d).1 (hdx d).le, (div_lt_iff₀ (hdx d)).2 (h d).2⟩

theorem stored_of {G : Grid} {C : Code} (h : G.Ok C) {n : I3} (hn : DepIn C G.c.ldims n) : Stored G.c n := by
  intro d
  cases e : C.act d
  · have := hn.inv d e; have := h.inv d e; omega
  · have := hn.lo d e; have := hn.hi d e; have := h.act d e; omega

theorem deposited_spec {G : Grid} {C : Code} (h : G.Ok C) (M : Moment) {ps : List Push.Prt}
    (hp : ∀ q ∈ ps, q.kind < G.kinds.length ∧ G.P.q q.kind ≠ 0 ∧ ∀ d, 0 ≤ q.x d ∧ q.x d < G.c.ldims d * G.P.dx d) :
    ∃ F, deposited G M C ps = some F ∧ ∀ m n, F (m, n) =
      (ps.map fun q => G.P.fnqs * valOf M G.P G.kinds m q * C.share (norm G q.x) n).sum := by
  refine ⟨valuesOf (ps.flatMap fun q => (M.calls G.P q (weight G.P q)).flatMap fun mv =>
      (Deposit.code C.dep G.P.dx G.P.fnqs q.x mv.2).map fun e => (mv.1, e)), ?_, fun m n => ?_⟩
  · unfold deposited
    rw [accumulate_eq G M C ps fun q hq => (hp q hq).2.1]
    simp only [bind, Option.bind_some]
    rw [if_pos]
    · rfl
    · intro e he
      obtain ⟨q, hq, he⟩ := List.mem_flatMap.1 he
      obtain ⟨c, hc, he⟩ := List.mem_flatMap.1 he
      obtain ⟨e', he', rfl⟩ := List.mem_map.1 he
      refine ⟨calls_lt M G q _ (hp q hq).1 c hc, ?_⟩
      have e1 : (fun d => q.x d * (1 / G.P.dx d)) = norm G q.x := by funext d; unfold norm; ring
      unfold Deposit.code at he'
      rw [e1] at he'
      have := stored_of h (dep_in C G.c.ldims _ _ (norm_in h.dx (hp q hq).2.2) e' he')
      exact ⟨this 0, this 1, this 2⟩
  · rw [valuesOf_flatMap]
    refine congrArg List.sum (List.map_congr_left fun q hq => ?_)
    rw [valuesOf_flatMap, ← calls_val M G.P G.kinds q (hp q hq).1 m, mul_comm G.P.fnqs, mul_assoc, ← sum_mul_right']
    refine congrArg List.sum (List.map_congr_left fun c _ => ?_)
    have e1 : (fun d => q.x d * (1 / G.P.dx d)) = norm G q.x := by funext d; unfold norm; ring
    rw [valuesOf_one _ _ _ _ (by unfold Deposit.code; exact dep_m C _ _)]
    unfold Deposit.code
    rw [dep_share, e1]
    split_ifs <;> ring

/-! ### Walls -/

theorem foldl_not_mem (d : Fin 3) (c : ℤ) (l : List I3) (f : I3 → ℝ) (i : I3) (h : i ∉ l) :
    l.foldl (Reflecting.foldAt d c) f i = f i := by
  induction l generalizing f with
  | nil => rfl
  | cons a l ih =>
    rw [List.foldl_cons, ih _ fun hh => h (List.mem_cons_of_mem _ hh)]
    unfold Reflecting.foldAt
    have hne : i ≠ a := by rintro rfl; exact h List.mem_cons_self
    exact Function.update_of_ne hne _ _

/-- the lowest ghost plane is not touched by folding node-centred moments -/
theorem low_nc {ldims ib : I3} {n : I3} {d : Fin 3} (h1 : ib d < 0) (h2 : n d = ib d) (h3 : 1 ≤ ldims d) (lo hi : Fin 3 → Bool)
    (f : I3 → ℝ) : Reflecting.addGhostsNC ldims ib lo hi f n = f n := by
  have k1 : ∀ (e : Fin 3) (f : I3 → ℝ), Reflecting.lo_nc ldims ib e f n = f n := by
    intro e f
    apply foldl_not_mem
    rw [Reflecting.mem_boxLoop]
    intro hh
    have := (hh d).1
    by_cases he : d = e
    · subst he; simp at this; omega
    · rw [Function.update_of_ne he] at this; unfold Reflecting.unused at this; rw [if_neg h1.ne] at this; omega
  have k2 : ∀ (e : Fin 3) (f : I3 → ℝ), Reflecting.hi_nc ldims ib e f n = f n := by
    intro e f
    apply foldl_not_mem
    rw [Reflecting.mem_boxLoop]
    intro hh
    have := (hh d).1
    by_cases he : d = e
    · subst he; simp [Reflecting.unused, h1.ne] at this; omega
    · rw [Function.update_of_ne he] at this; unfold Reflecting.unused at this; rw [if_neg h1.ne] at this; omega
  have k1' : ∀ (b : Bool) (e : Fin 3) (f : I3 → ℝ), (if b then Reflecting.lo_nc ldims ib e f else f) n = f n := by
    intro b e f; cases b <;> simp [k1]
  have k2' : ∀ (b : Bool) (e : Fin 3) (f : I3 → ℝ), (if b then Reflecting.hi_nc ldims ib e f else f) n = f n := by
    intro b e f; cases b <;> simp [k2]
  unfold Reflecting.addGhostsNC
  simp only [List.foldl_cons, List.foldl_nil, k1', k2']

/-- mirror image within a patch -/
def mir (G : Grid) (C : Code) (r p : ℕ) (j : I3) : I3 := fun d =>
  if C.isCC then Reflecting.mirrorCC (G.c.ldims d) (reflLo G r p d) (reflHi G r p d) (j d)
  else Reflecting.mirrorNC (G.c.ldims d) (reflLo G r p d) (reflHi G r p d) (j d)

theorem foldWalls_spec {G : Grid} {C : Code} (h : G.Ok C) (r p : ℕ) (F : PF ℝ) (m : ℕ)
    (hF : ∀ n, F (m, n) ≠ 0 → DepIn C G.c.ldims n) {n : I3} (hn : Stored G.c n)
    (hw : ∀ d, (reflLo G r p d = true → 0 ≤ n d) ∧ (reflHi G r p d = true → n d < G.c.ldims d)) :
    foldWalls G C r p F (m, n) = ∑ j ∈ storedCells G.c, if mir G C r p j = n then F (m, j) else 0 := by
  have hib : ∀ d, -G.c.ibn d ≤ 0 ∧ - -G.c.ibn d ≤ G.c.ldims d ∧ 1 ≤ G.c.ldims d := by
    intro d; have := h.ok.ibn d; have := h.pos d; omega
  have low : ∀ (j : I3) (d : Fin 3), C.isCC = false → 0 < G.c.ibn d → j d = -G.c.ibn d → F (m, j) = 0 := by
    intro j d hc h0 hj
    by_contra hne
    have := hF j hne
    cases e : C.act d
    · have := h.inv d e; omega
    · have := this.nc hc d e; have := h.act d e; omega
  unfold foldWalls mir
  cases hc : C.isCC
  · simp only [Bool.false_eq_true, if_false]
    by_cases hl : ∃ d, 0 < G.c.ibn d ∧ n d = -G.c.ibn d
    · obtain ⟨d, h0, hd⟩ := hl
      rw [low_nc (d := d) (by omega) hd (hib d).2.2, low n d hc h0 hd]
      symm
      apply Finset.sum_eq_zero
      intro j hj
      split_ifs with hm
      · refine low j d hc h0 ?_
        have hm := congrFun hm d
        have hj := mem_stored.1 hj d
        have := hw d
        have := hib d
        simp only [Reflecting.mirrorNC] at hm
        split_ifs at hm with a b
        · have := (hw d).1 a.1; omega
        · omega
        · omega
      · rfl
    · rw [Props.C40_fold_nc G.c.ldims (fun d => -G.c.ibn d) hib]
      · refine Finset.sum_subset ?_ ?_
        · intro j hj
          rw [Reflecting.mem_box] at hj
          rw [mem_stored]
          intro d
          have := hj d
          split_ifs at this <;> omega
        · intro j hj hj'
          rw [Reflecting.mem_box] at hj'
          have hj := mem_stored.1 hj
          push Not at hj'
          obtain ⟨d, hd⟩ := hj'
          have := hj d
          have h0 := (h.ok.ibn d).1
          have hz : F (m, j) = 0 := by
            refine low j d hc ?_ ?_ <;> split_ifs at hd <;> omega
          rw [hz]; split_ifs <;> rfl
      · intro d
        have h1 := hn d
        have h2 := hw d
        refine ⟨?_, by omega, h2.1, fun hh => (h2.2 hh).le⟩
        split_ifs with h0
        · omega
        · by_contra hne
          exact hl ⟨d, by have := (h.ok.ibn d).1; omega, by omega⟩
  · simp only [if_true]
    rw [Props.C40_fold_cc G.c.ldims (fun d => -G.c.ibn d) hib]
    · refine Finset.sum_congr ?_ fun _ _ => rfl
      ext j
      rw [Reflecting.mem_box, mem_stored]
      refine forall_congr' fun d => ?_
      omega
    · intro d
      have h1 := hn d
      have h2 := hw d
      exact ⟨h1.1, by omega, h2.1, h2.2⟩

/-! ### The whole domain -/

/-- where a patch lies along one direction -/
theorem off_cases {G : Grid} {C : Code} (h : G.Ok C) {r p : ℕ} (hp : G.c.D.Has r p) (d : Fin 3) :
    (G.c.off r p d = 0 ∨ G.c.ldims d ≤ G.c.off r p d) ∧
    (G.c.off r p d + G.c.ldims d = G.c.gdims d ∨ G.c.off r p d + 2 * G.c.ldims d ≤ G.c.gdims d) := by
  have h1 := (Props.C25_idx3_owner G.c.D h.ok.valid r p hp).1 d
  have hL := h.pos d
  unfold Cfg.off Cfg.gdims
  constructor
  · rcases Nat.eq_zero_or_pos (G.c.D.idx3 r p d) with h0 | h0
    · left; rw [h0]; simp
    · right
      have : (1 : ℤ) ≤ G.c.D.idx3 r p d := by exact_mod_cast h0
      nlinarith
  · rcases (Nat.succ_le_of_lt h1).eq_or_lt with h0 | h0
    · left
      have : (G.c.D.np d : ℤ) = G.c.D.idx3 r p d + 1 := by exact_mod_cast h0.symm
      rw [this]; ring
    · right
      have : (G.c.D.idx3 r p d : ℤ) + 2 ≤ G.c.D.np d := by
        have : G.c.D.idx3 r p d + 2 ≤ G.c.D.np d := by omega
        exact_mod_cast this
      nlinarith

theorem reflLo_iff (G : Grid) (r p : ℕ) (d : Fin 3) :
    reflLo G r p d = true ↔ G.c.off r p d = 0 ∧ (G.prt_lo d == .reflecting) = true := by
  unfold reflLo Cfg.off; rw [Bool.and_eq_true, decide_eq_true_iff]

theorem reflHi_iff (G : Grid) (r p : ℕ) (d : Fin 3) :
    reflHi G r p d = true ↔ G.c.off r p d + G.c.ldims d = G.c.gdims d ∧ (G.prt_hi d == .reflecting) = true := by
  unfold reflHi Cfg.off Cfg.gdims; rw [Bool.and_eq_true, decide_eq_true_iff]

/-- mirror images within a patch are those in the whole domain -/
theorem mir_foldI {G : Grid} {C : Code} (h : G.Ok C) {r p : ℕ} (hp : G.c.D.Has r p) {j : I3} (hj : Stored G.c j) :
    phys G.c r p (mir G C r p j) = G.foldI C (fun d => G.c.off r p d + j d) := by
  funext d
  obtain ⟨o1, o2⟩ := off_cases h hp d
  have hi := h.ok.ibn d
  have hL := h.pos d
  have hj := hj d
  have k1 := reflLo_iff G r p d
  have k2 := reflHi_iff G r p d
  unfold phys Grid.foldI
  by_cases hb : G.c.D.bc d = true
  · obtain ⟨a, b⟩ := h.per d hb
    have a' : (G.prt_lo d == .reflecting) = false := by simpa using a
    have b' : (G.prt_hi d == .reflecting) = false := by simpa using b
    have z1 : reflLo G r p d = false := by rw [Bool.eq_false_iff, Ne, k1, a']; simp
    have z2 : reflHi G r p d = false := by rw [Bool.eq_false_iff, Ne, k2, b']; simp
    rw [if_pos hb, if_pos hb]
    have : mir G C r p j d = j d := by
      unfold mir Reflecting.mirrorCC Reflecting.mirrorNC
      rw [z1, z2]; simp
    rw [this]
  · rw [if_neg hb, if_neg hb]
    unfold mir Reflecting.mirrorCC Reflecting.mirrorNC
    simp only [k1, k2]
    by_cases hc : C.isCC = true
    · simp only [if_pos hc]
      cases (G.prt_lo d == .reflecting) <;> cases (G.prt_hi d == .reflecting) <;> simp only [and_true, and_false, true_and,
        false_and, if_false, Bool.false_eq_true] <;> split_ifs <;> omega
    · simp only [if_neg hc]
      cases (G.prt_lo d == .reflecting) <;> cases (G.prt_hi d == .reflecting) <;> simp only [and_true, and_false, true_and,
        false_and, if_false, Bool.false_eq_true] <;> split_ifs <;> omega

theorem mir_stored {G : Grid} {C : Code} (h : G.Ok C) (r p : ℕ) {j : I3} (hj : Stored G.c j) : Stored G.c (mir G C r p j) := by
  intro d
  have hi := h.ok.ibn d
  have hL := h.pos d
  have hj := hj d
  unfold mir Reflecting.mirrorCC Reflecting.mirrorNC
  split_ifs <;> omega

/-- the global cell lies in the domain -/
theorem interior_global {G : Grid} {C : Code} (h : G.Ok C) {r p : ℕ} (hp : G.c.D.Has r p) {n : I3} (hn : Interior G.c n)
    (d : Fin 3) : 0 ≤ G.c.off r p d + n d ∧ G.c.off r p d + n d < G.c.gdims d := by
  have := off_cases h hp d
  have := hn d
  have := h.pos d
  omega

theorem total_fold {G : Grid} {C : Code} (h : G.Ok C) (F : Glob ℝ) (m : ℕ)
    (hF : ∀ r p, G.c.D.Has r p → ∀ n, F r p (m, n) ≠ 0 → DepIn C G.c.ldims n) {x : I3}
    (hx : ∀ d, 0 ≤ x d ∧ x d < G.c.gdims d) :
    total G.c (fun r p => foldWalls G C r p (F r p)) m x = ∑ rp ∈ patches G.c.D, ∑ j ∈ storedCells G.c,
      if G.foldI C (fun d => G.c.off rp.1 rp.2 d + j d) = x then F rp.1 rp.2 (m, j) else 0 := by
  have hwx : wrap G.c x = x := by
    funext d; unfold wrap; split_ifs
    · exact Int.emod_eq_of_lt (hx d).1 (hx d).2
    · rfl
  unfold total
  rw [hwx]
  refine Finset.sum_congr rfl fun rp hrp => ?_
  have hp := mem_patches.1 hrp
  obtain ⟨r, p⟩ := rp
  simp only at hp ⊢
  have step1 : ∀ n ∈ storedCells G.c, (if phys G.c r p n = x then foldWalls G C r p (F r p) (m, n) else 0) =
      ∑ j ∈ storedCells G.c, if phys G.c r p n = x then (if mir G C r p j = n then F r p (m, j) else 0) else 0 := by
    intro n hn
    by_cases hph : phys G.c r p n = x
    · simp only [if_pos hph]
      refine foldWalls_spec h r p (F r p) m (hF r p hp) (mem_stored.1 hn) fun d => ?_
      have hd := congrFun hph d
      unfold phys at hd
      have := hx d
      constructor
      · intro hr
        obtain ⟨h0, h1⟩ := (reflLo_iff G r p d).1 hr
        rw [if_neg (fun hb => (h.per d hb).1 (by simpa using h1))] at hd
        omega
      · intro hr
        obtain ⟨h0, h1⟩ := (reflHi_iff G r p d).1 hr
        rw [if_neg (fun hb => (h.per d hb).2 (by simpa using h1))] at hd
        omega
    · simp only [if_neg hph, Finset.sum_const_zero]
  rw [Finset.sum_congr rfl step1, Finset.sum_comm]
  refine Finset.sum_congr rfl fun j hj => ?_
  have hj := mem_stored.1 hj
  rw [← mir_foldI h hp hj]
  rw [Finset.sum_eq_single (mir G C r p j)]
  · simp
  · intro n _ hne
    rw [if_neg (Ne.symm hne)]; split_ifs <;> rfl
  · intro hne
    exact absurd (mem_stored.2 (mir_stored h r p hj)) hne

/-- the cells a particle of a patch is deposited to, in the frame of the patch and in that of the domain -/
theorem sum_share {G : Grid} {C : Code} (h : G.Ok C) {r p : ℕ} (hp : G.c.D.Has r p) {y : R3 ℝ}
    (hy : ∀ d, 0 ≤ y d ∧ y d < G.c.ldims d) (x : I3) (a : ℝ) :
    (∑ j ∈ storedCells G.c, if G.foldI C (fun d => G.c.off r p d + j d) = x then a * C.share y j else 0) =
      ∑ n ∈ G.around, if G.foldI C n = x then a * C.share (fun d => y d + G.c.off r p d) n else 0 := by
  have hinv : ∀ d, C.act d = false → G.c.off r p d = 0 := by
    intro d hd
    have := off_cases h hp d
    have e := h.inv d hd
    have : G.c.gdims d = 1 := by unfold Cfg.gdims; rw [e.1, e.2.1]; rfl
    omega
  have hcov := fun n => share_cov C y (G.c.off r p) n hinv
  have hw : C.width ≤ 2 := by cases C <;> simp [Code.width]
  refine Finset.sum_bij_ne_zero (fun j _ _ => fun d => G.c.off r p d + j d) ?_ ?_ ?_ ?_
  · intro j _ hne
    have hs : C.share y j ≠ 0 := by
      intro h0; rw [h0, mul_zero, ite_self] at hne; exact hne rfl
    have hd := share_in C G.c.ldims y hy hs
    unfold Grid.around
    rw [Reflecting.mem_box]
    intro d
    have := off_cases h hp d
    have := h.pos d
    cases e : C.act d
    · have := hd.inv d e; have := hinv d e; omega
    · have := hd.lo d e; have := hd.hi d e; omega
  · intro j _ _ j' _ _ e
    funext d
    have := congrFun e d
    simpa using this
  · intro n _ hne
    have hs : C.share (fun d => y d + G.c.off r p d) n ≠ 0 := by
      intro h0; rw [h0, mul_zero, ite_self] at hne; exact hne rfl
    have e : (fun d => G.c.off r p d + (n d - G.c.off r p d)) = n := by funext d; ring
    have e1 := hcov fun d => n d - G.c.off r p d
    rw [e] at e1
    rw [e1] at hs hne
    refine ⟨fun d => n d - G.c.off r p d, mem_stored.2 (stored_of h (share_in C G.c.ldims y hy hs)), ?_, e⟩
    rw [e]; exact hne
  · intro j _ _
    rw [hcov j]

theorem valOf_global (G : Grid) (M : Moment) (m : ℕ) (q : Push.Prt) (x : R3 ℝ) (hof : ∀ c ∈ M.components G.kinds, ∀ x, c.of { q with x := x } = c.of q) :
    valOf M G.P G.kinds m { q with x := x } = valOf M G.P G.kinds m q := by
  unfold valOf
  cases hm : (M.components G.kinds)[m]? with
  | none => rfl
  | some c =>
    simp only [Option.elim]
    rw [hof c (List.mem_of_getElem? hm)]
    cases c.what <;> rfl

theorem sum_list_finset {α : Type} (l : List α) (S : Finset I3) (f : α → I3 → ℝ) :
    ∑ n ∈ S, (l.map fun q => f q n).sum = (l.map fun q => ∑ n ∈ S, f q n).sum := by
  induction l with
  | nil => simp
  | cons a l ih => simp only [List.map_cons, List.sum_cons, Finset.sum_add_distrib, ih]

theorem ite_sum {α : Type} (l : List α) (p : Prop) [Decidable p] (f : α → ℝ) :
    (if p then (l.map f).sum else 0) = (l.map fun q => if p then f q else 0).sum := by
  split_ifs <;> simp

theorem comp_of (M : Moment) (kinds : List String) (c : Component) (hc : c ∈ M.components kinds) (q : Push.Prt) (x : R3 ℝ) :
    c.of { q with x := x } = c.of q := by
  have k : ∀ t, c ∈ perKind t kinds → c.of { q with x := x } = c.of q := by
    intro t ht
    obtain ⟨a, -, h⟩ := List.mem_flatMap.1 ht
    obtain ⟨b, -, rfl⟩ := List.mem_map.1 h
    rfl
  cases M
  · exact k _ hc
  · simp only [Moment.components, List.mem_singleton] at hc; subst hc; rfl
  · exact k _ hc
  · exact k _ hc
  · exact k _ hc

theorem collect {G : Grid} {M : Moment} {C : Code} {prts : ℕ → ℕ → List Push.Prt}
    (h : ∀ r p, G.c.D.Has r p → (deposited G M C (prts r p)).isSome) :
    item G M C prts = addAll G.c 0 (n_comps G M) fun r p => foldWalls G C r p ((deposited G M C (prts r p)).getD fun _ => 0) := by
  unfold item
  rw [if_pos]
  intro r hr p hp
  exact h r p ⟨List.mem_range.1 hr, List.mem_range.1 hp⟩

/-- Every component at every cell is the density on the whole domain. -/
theorem item_spec {G : Grid} {C : Code} (h : G.Ok C) (M : Moment) {prts : ℕ → ℕ → List Push.Prt} (hp : G.Holds prts) :
    ∃ τ, item G M C prts = some τ ∧ ∀ m, m < n_comps G M → ∀ r p, G.c.D.Has r p → ∀ n, Interior G.c n →
      τ r p (m, n) = density G C (valOf M G.P G.kinds m) (G.global prts) (fun d => G.c.off r p d + n d) := by
  have hd := fun r p hh => deposited_spec h M (hp r p hh)
  have hc := collect (M := M) (C := C) (prts := prts) (G := G) fun r p hh => by
    obtain ⟨F, hF, -⟩ := hd r p hh; rw [hF]; rfl
  set F : Glob ℝ := fun r p => (deposited G M C (prts r p)).getD fun _ => 0 with hFd
  obtain ⟨τ, hτ⟩ := BndFields.addAll_total h.ok 0 (n_comps G M) (by omega) fun r p => foldWalls G C r p (F r p)
  refine ⟨τ, hc.trans hτ, fun m hm r p hh n hn => ?_⟩
  have hv : ∀ r p, G.c.D.Has r p → ∀ n, F r p (m, n) =
      ((prts r p).map fun q => G.P.fnqs * valOf M G.P G.kinds m q * C.share (norm G q.x) n).sum := by
    intro r p hh n
    obtain ⟨f, hf, hv⟩ := hd r p hh
    rw [hFd]; simp only [hf, Option.getD_some]
    exact hv m n
  rw [(BndFields.addAllB_spec h.ok 0 (n_comps G M) (by omega) hτ).1 m (by omega) hm r p hh n hn,
    total_fold h F m ?_ (interior_global h hh hn)]
  · rw [sum_patches]
    unfold density Grid.global
    rw [Pic.sum_flatMap]
    refine congrArg List.sum (List.map_congr_left fun rp hrp => ?_)
    have hh' := Bndp.mem_allPatches.1 hrp
    obtain ⟨r', p'⟩ := rp
    simp only at hh' ⊢
    rw [List.map_map]
    simp only [hv r' p' hh', ite_sum]
    rw [sum_list_finset]
    refine congrArg List.sum (List.map_congr_left fun q hq => ?_)
    simp only [Function.comp]
    rw [sum_share h hh' (norm_in h.dx (hp r' p' hh' q hq).2.2),
      valOf_global G M m q (fun d => q.x d + G.c.off r' p' d * G.P.dx d) fun c hc x => comp_of M G.kinds c hc q x]
    refine Finset.sum_congr rfl fun n' _ => ?_
    have : (fun d => norm G q.x d + (G.c.off r' p' d : ℝ)) =
        fun d => (q.x d + G.c.off r' p' d * G.P.dx d) / G.P.dx d := by
      funext d
      have := (h.dx d).ne'
      unfold norm
      field_simp
    rw [this]
  · intro r p hh n hne
    rw [hv r p hh] at hne
    by_contra hno
    apply hne
    apply List.sum_eq_zero
    intro y hy
    obtain ⟨q, hq, rfl⟩ := List.mem_map.1 hy
    have : C.share (norm G q.x) n = 0 := by
      by_contra hs
      exact hno (share_in C G.c.ldims _ (norm_in h.dx (hp r p hh q hq).2.2) hs)
    rw [this, mul_zero]

/-- what is deposited in a closed domain ends up in one of its cells -/
theorem foldI_in {G : Grid} {C : Code} (h : G.Ok C) (hcl : G.Closed C) (hpos : ∀ d, 0 < G.c.gdims d) {n : I3}
    (hn : DepIn C G.c.gdims n) : G.foldI C n ∈ globalCells G.c := by
  rw [mem_globalCells]
  intro d
  have hg := hpos d
  unfold Grid.foldI
  by_cases hb : G.c.D.bc d = true
  · rw [if_pos hb]
    exact ⟨Int.emod_nonneg _ hg.ne', Int.emod_lt_of_pos _ hg⟩
  · rw [if_neg hb]
    cases e : C.act d
    · have h0 := hn.inv d e
      rw [h0]
      unfold Reflecting.mirrorCC Reflecting.mirrorNC
      split_ifs <;> omega
    · obtain ⟨hc, h1, h2⟩ := (hcl d e).resolve_left hb
      have a := hn.lo d e
      have b := hn.hi d e
      have w : C.width = 1 := by cases C <;> simp_all [Code.width, Code.isCC]
      rw [w] at a b
      unfold Reflecting.mirrorCC
      simp only [hc, h1, h2, if_true]
      simp only [beq_self_eq_true, true_and]
      split_ifs <;> omega

theorem density_total {G : Grid} {C : Code} (h : G.Ok C) (hcl : G.Closed C) (val : Push.Prt → ℝ)
    {l : List Push.Prt} (hl : ∀ q ∈ l, ∀ d, 0 ≤ q.x d ∧ q.x d < G.c.gdims d * G.P.dx d) :
    ∑ x ∈ globalCells G.c, density G C val l x = (l.map fun q => G.P.fnqs * val q).sum := by
  unfold density
  rw [sum_list_finset]
  refine congrArg List.sum (List.map_congr_left fun q hq => ?_)
  have hx : ∀ d, 0 ≤ q.x d / G.P.dx d ∧ q.x d / G.P.dx d < G.c.gdims d := norm_in h.dx (hl q hq)
  have hpos : ∀ d, 0 < G.c.gdims d := fun d => by exact_mod_cast (hx d).1.trans_lt (hx d).2
  rw [Finset.sum_comm]
  have : ∀ n ∈ G.around, (∑ x ∈ globalCells G.c, if G.foldI C n = x then
      G.P.fnqs * val q * C.share (fun d => q.x d / G.P.dx d) n else 0) =
      G.P.fnqs * val q * C.share (fun d => q.x d / G.P.dx d) n := by
    intro n _
    rw [Finset.sum_ite_eq]
    by_cases hs : C.share (fun d => q.x d / G.P.dx d) n = 0
    · rw [hs, mul_zero, ite_self]
    · rw [if_pos (foldI_in h hcl hpos (share_in C G.c.gdims _ hx hs))]
  rw [Finset.sum_congr rfl this, ← Finset.mul_sum, share_sum C G.c.gdims _ hx, mul_one]
  intro n hn
  unfold Grid.around
  rw [Reflecting.mem_box]
  have hw : C.width ≤ 2 := by cases C <;> simp [Code.width]
  intro d
  cases e : C.act d
  · have := hn.inv d e; have := hpos d; omega
  · have := hn.lo d e; have := hn.hi d e; omega

theorem global_in {G : Grid} {C : Code} (h : G.Ok C) {prts : ℕ → ℕ → List Push.Prt} (hp : G.Holds prts) :
    ∀ q ∈ G.global prts, ∀ d, 0 ≤ q.x d ∧ q.x d < G.c.gdims d * G.P.dx d := by
  intro q hq d
  obtain ⟨rp, hrp, hq⟩ := List.mem_flatMap.1 hq
  obtain ⟨q', hq', rfl⟩ := List.mem_map.1 hq
  have hh := Bndp.mem_allPatches.1 hrp
  obtain ⟨a, b⟩ := (hp rp.1 rp.2 hh q' hq').2.2 d
  have hd := h.dx d
  have o := off_cases h hh d
  have hL := h.pos d
  have o1 : (0 : ℝ) ≤ G.c.off rp.1 rp.2 d := by
    have : 0 ≤ G.c.off rp.1 rp.2 d := by omega
    exact_mod_cast this
  have o2 : (G.c.off rp.1 rp.2 d : ℝ) + G.c.ldims d ≤ G.c.gdims d := by
    have : G.c.off rp.1 rp.2 d + G.c.ldims d ≤ G.c.gdims d := by omega
    exact_mod_cast this
  simp only
  constructor
  · positivity
  · nlinarith

theorem sum_filter {l : List Push.Prt} (p : Push.Prt → Bool) (f : Push.Prt → ℝ) :
    ((l.filter p).map f).sum = (l.map fun q => if p q then f q else 0).sum := by
  induction l with
  | nil => rfl
  | cons a l ih =>
    rw [List.filter_cons]
    cases h : p a <;> simp [h, ih]

theorem density_filter (G : Grid) (C : Code) (p : Push.Prt → Bool) (f : Push.Prt → ℝ) (l : List Push.Prt) (x : I3) :
    density G C (fun q => if p q then f q else 0) l x = density G C f (l.filter p) x := by
  unfold density
  rw [sum_filter]
  refine congrArg List.sum (List.map_congr_left fun q _ => ?_)
  cases h : p q <;> simp [h]

theorem neutral_none {G : Grid} (M : Moment) (C : Code) {ps : List Push.Prt} {q : Push.Prt} (hq : q ∈ ps)
    (h0 : G.P.q q.kind = 0) : accumulate G M C ps = none := by
  induction ps with
  | nil => simp at hq
  | cons a ps ih =>
    unfold accumulate
    rcases List.mem_cons.1 hq with rfl | hq
    · rw [prt_w, if_pos h0]; rfl
    · rw [ih hq]; cases prt_w G.P a <;> rfl

end

end Psc.Moments
