import Verif.Lemmas.SerialWallFields
import Verif.Lemmas.WallStep
import Verif.Lemmas.Serial
import Verif.Spec.SerialWall

/-!
# Decomposed runs and runs on the undivided grid, in a box with walls
-/

namespace Psc.WallPic

open Domain Ddc FieldStep BndFields Spec Yee Translate Pic

noncomputable section

/-! ### What the push reads -/

/-- a face with normal `m` of the cells of a patch -/
def Face (S : Setup) (m : Fin 3) (n : I3) : Prop :=
  ∀ d, 0 ≤ n d ∧ n d ≤ S.c.ldims d ∧ (d ≠ m ∨ S.cfg.inv d = true → n d < S.c.ldims d)

theorem ec_xyz_congr {x y w : Interp.C1 ℝ} {L : I3} (bx : 0 ≤ x.l ∧ x.l < L 0) (bY : 0 ≤ y.l ∧ y.l < L 1)
    (bz : 0 ≤ w.l ∧ w.l < L 2) {A B : Interp.Fld ℝ}
    (e0 : ∀ i j k, 0 ≤ i → i < L 0 → 0 ≤ j → j ≤ L 1 → 0 ≤ k → k ≤ L 2 → A 0 i j k = B 0 i j k)
    (e1 : ∀ i j k, 0 ≤ i → i ≤ L 0 → 0 ≤ j → j < L 1 → 0 ≤ k → k ≤ L 2 → A 1 i j k = B 1 i j k)
    (e2 : ∀ i j k, 0 ≤ i → i ≤ L 0 → 0 ≤ j → j ≤ L 1 → 0 ≤ k → k < L 2 → A 2 i j k = B 2 i j k)
    (h0 : ∀ i j k, 0 ≤ i → i ≤ L 0 → 0 ≤ j → j < L 1 → 0 ≤ k → k < L 2 → A 3 i j k = B 3 i j k)
    (h1 : ∀ i j k, 0 ≤ i → i < L 0 → 0 ≤ j → j ≤ L 1 → 0 ≤ k → k < L 2 → A 4 i j k = B 4 i j k)
    (h2 : ∀ i j k, 0 ≤ i → i < L 0 → 0 ≤ j → j < L 1 → 0 ≤ k → k ≤ L 2 → A 5 i j k = B 5 i j k) :
    Interp.ec_xyz x y w A = Interp.ec_xyz x y w B := by
  unfold Interp.ec_xyz
  rw [e0 x.l y.l w.l, e0 x.l (y.l + 1) w.l, e0 x.l y.l (w.l + 1), e0 x.l (y.l + 1) (w.l + 1),
    e1 x.l y.l w.l, e1 (x.l + 1) y.l w.l, e1 x.l y.l (w.l + 1), e1 (x.l + 1) y.l (w.l + 1),
    e2 x.l y.l w.l, e2 (x.l + 1) y.l w.l, e2 x.l (y.l + 1) w.l, e2 (x.l + 1) (y.l + 1) w.l,
    h0 x.l y.l w.l, h0 (x.l + 1) y.l w.l, h1 x.l y.l w.l, h1 x.l (y.l + 1) w.l, h2 x.l y.l w.l, h2 x.l y.l (w.l + 1)]
  all_goals omega

theorem ec_yz_congr {y w : Interp.C1 ℝ} {L : I3} (bY : 0 ≤ y.l ∧ y.l < L 1) (bz : 0 ≤ w.l ∧ w.l < L 2) {A B : Interp.Fld ℝ}
    (e0 : ∀ j k, 0 ≤ j → j ≤ L 1 → 0 ≤ k → k ≤ L 2 → A 0 0 j k = B 0 0 j k)
    (e1 : ∀ j k, 0 ≤ j → j < L 1 → 0 ≤ k → k ≤ L 2 → A 1 0 j k = B 1 0 j k)
    (e2 : ∀ j k, 0 ≤ j → j ≤ L 1 → 0 ≤ k → k < L 2 → A 2 0 j k = B 2 0 j k)
    (h0 : ∀ j k, 0 ≤ j → j < L 1 → 0 ≤ k → k < L 2 → A 3 0 j k = B 3 0 j k)
    (h1 : ∀ j k, 0 ≤ j → j ≤ L 1 → 0 ≤ k → k < L 2 → A 4 0 j k = B 4 0 j k)
    (h2 : ∀ j k, 0 ≤ j → j < L 1 → 0 ≤ k → k ≤ L 2 → A 5 0 j k = B 5 0 j k) :
    Interp.ec_yz y w A = Interp.ec_yz y w B := by
  unfold Interp.ec_yz
  rw [e0 y.l w.l, e0 (y.l + 1) w.l, e0 y.l (w.l + 1), e0 (y.l + 1) (w.l + 1),
    e1 y.l w.l, e1 y.l (w.l + 1), e2 y.l w.l, e2 (y.l + 1) w.l,
    h0 y.l w.l, h1 y.l w.l, h1 (y.l + 1) w.l, h2 y.l w.l, h2 y.l (w.l + 1)]
  all_goals omega

/-- the fields of the patch agree with other fields on the edges and faces of its cells -/
structure Agree (S : Setup) (A B : Interp.Fld ℝ) : Prop where
  E0 : ∀ n : I3, Edge S 0 n → A 0 (n 0) (n 1) (n 2) = B 0 (n 0) (n 1) (n 2)
  E1 : ∀ n : I3, Edge S 1 n → A 1 (n 0) (n 1) (n 2) = B 1 (n 0) (n 1) (n 2)
  E2 : ∀ n : I3, Edge S 2 n → A 2 (n 0) (n 1) (n 2) = B 2 (n 0) (n 1) (n 2)
  H0 : ∀ n : I3, Face S 0 n → A 3 (n 0) (n 1) (n 2) = B 3 (n 0) (n 1) (n 2)
  H1 : ∀ n : I3, Face S 1 n → A 4 (n 0) (n 1) (n 2) = B 4 (n 0) (n 1) (n 2)
  H2 : ∀ n : I3, Face S 2 n → A 5 (n 0) (n 1) (n 2) = B 5 (n 0) (n 1) (n 2)

/-- Interpolation reads the electric field on edges and the magnetic field on faces of the cells of the patch. -/
theorem interp_reads {S : Setup} (hI : S.cfg.inv 0 = true → S.c.ldims 0 = 1) (hS : Scheme S) {z : R3 ℝ}
    (hz : ∀ d, 0 ≤ z d ∧ z d < S.c.ldims d) {A B : Interp.Fld ℝ} (h : Agree S A B) : S.cfg.interp z A = S.cfg.interp z B := by
  have b := fun d => Interp.c1_in (n := S.c.ldims d) (hz d).1 (hz d).2
  have edge : ∀ (m : Fin 3) (i j k : ℤ), (0 ≤ i ∧ i ≤ S.c.ldims 0 ∧ (0 = m ∨ S.cfg.inv 0 = true → i < S.c.ldims 0)) →
      (0 ≤ j ∧ j ≤ S.c.ldims 1 ∧ (1 = m ∨ S.cfg.inv 1 = true → j < S.c.ldims 1)) →
      (0 ≤ k ∧ k ≤ S.c.ldims 2 ∧ (2 = m ∨ S.cfg.inv 2 = true → k < S.c.ldims 2)) → Edge S m ![i, j, k] := by
    intro m i j k h0 h1 h2 d
    fin_cases d
    · exact h0
    · exact h1
    · exact h2
  have face : ∀ (m : Fin 3) (i j k : ℤ), (0 ≤ i ∧ i ≤ S.c.ldims 0 ∧ (0 ≠ m ∨ S.cfg.inv 0 = true → i < S.c.ldims 0)) →
      (0 ≤ j ∧ j ≤ S.c.ldims 1 ∧ (1 ≠ m ∨ S.cfg.inv 1 = true → j < S.c.ldims 1)) →
      (0 ≤ k ∧ k ≤ S.c.ldims 2 ∧ (2 ≠ m ∨ S.cfg.inv 2 = true → k < S.c.ldims 2)) → Face S m ![i, j, k] := by
    intro m i j k h0 h1 h2 d
    fin_cases d
    · exact h0
    · exact h1
    · exact h2
  obtain ⟨hc, -⟩ | ⟨hc, -⟩ := hS
  · have hi : ∀ d, S.cfg.inv d = false := by rw [hc]; intro d; fin_cases d <;> rfl
    rw [hc]
    have i0 := hi 0; have i1 := hi 1; have i2 := hi 2
    refine ec_xyz_congr (b 0) (b 1) (b 2) (fun i j k a a' b b' c c' => h.E0 _ (edge 0 i j k ?_ ?_ ?_))
      (fun i j k a a' b b' c c' => h.E1 _ (edge 1 i j k ?_ ?_ ?_)) (fun i j k a a' b b' c c' => h.E2 _ (edge 2 i j k ?_ ?_ ?_))
      (fun i j k a a' b b' c c' => h.H0 _ (face 0 i j k ?_ ?_ ?_)) (fun i j k a a' b b' c c' => h.H1 _ (face 1 i j k ?_ ?_ ?_))
      (fun i j k a a' b b' c c' => h.H2 _ (face 2 i j k ?_ ?_ ?_)) <;>
      simp only [i0, i1, i2, Bool.false_eq_true, or_false] <;> refine ⟨by omega, by omega, fun h => ?_⟩ <;>
      first | omega | exact absurd h (by decide)
  · have i0 : S.cfg.inv 0 = true := by rw [hc]; rfl
    have i1 : S.cfg.inv 1 = false := by rw [hc]; rfl
    have i2 : S.cfg.inv 2 = false := by rw [hc]; rfl
    have l0 := hI i0
    rw [hc]
    refine ec_yz_congr (b 1) (b 2) (fun j k b b' c c' => h.E0 _ (edge 0 0 j k ?_ ?_ ?_))
      (fun j k b b' c c' => h.E1 _ (edge 1 0 j k ?_ ?_ ?_)) (fun j k b b' c c' => h.E2 _ (edge 2 0 j k ?_ ?_ ?_))
      (fun j k b b' c c' => h.H0 _ (face 0 0 j k ?_ ?_ ?_)) (fun j k b b' c c' => h.H1 _ (face 1 0 j k ?_ ?_ ?_))
      (fun j k b b' c c' => h.H2 _ (face 2 0 j k ?_ ?_ ?_)) <;>
      simp only [i0, i1, i2, Bool.false_eq_true, or_false, or_true] <;> refine ⟨by omega, by omega, fun h => ?_⟩ <;>
      first | omega | exact absurd h (by decide)

theorem push_reads {S : Setup} (hF : Fit S) (hS : Scheme S) {ps : List Push.Prt} (hp : Props.InPatch S.c.ldims S.P ps)
    {A B : Interp.Fld ℝ} (h : Agree S A B) : Push.pushAll S.cfg S.P A ps = Push.pushAll S.cfg S.P B ps := by
  have one : ∀ q ∈ ps, Push.pushOne S.cfg S.P A q = Push.pushOne S.cfg S.P B q := by
    intro q hq
    have : S.cfg.interp (fun d => q.x d * (1 / S.P.dx d)) A = S.cfg.interp (fun d => q.x d * (1 / S.P.dx d)) B := by
      refine interp_reads (fun h => (hF.inv 0 h).1) hS (fun d => ?_) h
      have hd := hF.dx d
      obtain ⟨a, b⟩ := hp q hq d
      rw [mul_one_div]
      exact ⟨div_nonneg a hd.le, (div_lt_iff₀ hd).2 b⟩
    unfold Push.pushOne
    simp only [this]
  rw [pushAll_eq, pushAll_eq, List.map_congr_left fun q hq => congrArg Prod.fst (one q hq),
    List.flatMap_congr fun q hq => congrArg Prod.snd (one q hq)]

/-! ### What the patches hold -/

theorem Closed.walls {S : Setup} (hC : Closed S) (hF : Fit S) {d : Fin 3} (hb : S.c.D.bc d = false) :
    S.cfg.inv d = false ∧ (S.fld_lo d = .conducting ∧ S.fld_hi d = .conducting) ∧
      S.prt_lo d = .reflecting ∧ S.prt_hi d = .reflecting := by
  have hi : S.cfg.inv d = false := by
    cases hi : S.cfg.inv d with
    | false => rfl
    | true => have := (hF.inv d hi).2.2.2.1; rw [hb] at this; cases this
  refine ⟨hi, ?_⟩
  rcases (hF.act d hi).2.2 with ⟨a, -⟩ | ⟨-, a, b⟩
  · rw [hb] at a; cases a
  · have s : ∀ p f, f ≠ FldBC.open → Side d p f → f = .conducting ∧ p = .reflecting := by
      intro p f hf hs; cases hs <;> simp_all
    obtain ⟨a1, a2⟩ := s _ _ (hC d).1 a
    obtain ⟨b1, b2⟩ := s _ _ (hC d).2 b
    exact ⟨⟨a1, b1⟩, a2, b2⟩

theorem Closed.wallsB {S : Setup} (hC : Closed S) (hF : Fit S) (rad : Option (Radiation ℝ)) : WallsB S.c S.g (S.bnd rad) :=
  fun _ hb => ⟨(hC.walls hF hb).1, (hC.walls hF hb).2.1⟩

/-- a cell of a closed patch that is not in the domain is at an upper wall -/
theorem out_top {S : Setup} (hF : Fit S) {r p : ℕ} (hh : S.c.D.Has r p) {n : I3}
    (hn : ∀ d, 0 ≤ n d ∧ n d ≤ S.c.ldims d ∧ (S.cfg.inv d = true → n d < S.c.ldims d)) :
    Stored S.c n ∧ (InDomain S.c r p n ∨ ∃ d, AtWall S r p d ∧ n d = S.c.ldims d) := by
  constructor
  · intro d
    have := hn d
    cases hi : S.cfg.inv d
    · have := (hF.act d hi).1; omega
    · have := hF.inv d hi; have := (hn d).2.2 hi; omega
  · by_cases h : InDomain S.c r p n
    · exact .inl h
    · right
      unfold InDomain at h
      push Not at h
      obtain ⟨d, h1, h2⟩ := h
      have o := off_range (hF.fitsB none) hh d
      have := hn d
      have := h2 (by omega)
      exact ⟨d, ⟨by simpa using h1, by omega⟩, by omega⟩

theorem Represents.agree {S : Setup} (hF : Fit S) {s : Pic.State} {G : Serial.State} (hR : Represents S s G) {r p : ℕ}
    (hh : S.c.D.Has r p) : Agree S (emOf (s.flds r p)) (shiftF (S.c.off r p) (Serial.em G.E G.H)) := by
  have v : ∀ n : I3, ![n 0, n 1, n 2] = n := fun n => by funext d; fin_cases d <;> rfl
  have v' : ∀ n : I3, ![n 0 + S.c.off r p 0, n 1 + S.c.off r p 1, n 2 + S.c.off r p 2] = fun d => S.c.off r p d + n d :=
    fun n => by funext d; fin_cases d <;> exact add_comm _ _
  have e : ∀ (m : Fin 3) n, Edge S m n → s.flds r p (EX + m, n) = G.E m (fun d => S.c.off r p d + n d) := by
    intro m n hn
    obtain ⟨h1, h2⟩ := out_top hF hh (n := n) fun d => ⟨(hn d).1, (hn d).2.1, fun h => (hn d).2.2 (.inr h)⟩
    rcases h2 with h2 | ⟨d, hw, hd⟩
    · exact hR.E m r p hh n h1 h2
    · have hdm : d ≠ m := by rintro rfl; have := (hn d).2.2 (.inl rfl); omega
      rw [hR.hiE r p hh d m hdm hw n hn hd, hR.topE d m hdm hw.1]
      have := hw.2
      omega
  have h : ∀ (m : Fin 3) n, Face S m n → s.flds r p (HX + m, n) = G.H m (fun d => S.c.off r p d + n d) := by
    intro m n hn
    obtain ⟨h1, h2⟩ := out_top hF hh (n := n) fun d => ⟨(hn d).1, (hn d).2.1, fun h => (hn d).2.2 (.inr h)⟩
    rcases h2 with h2 | ⟨d, hw, hd⟩
    · exact hR.H m r p hh n h1 h2
    · have hdm : d = m := by by_contra hne; have := (hn d).2.2 (.inl hne); omega
      subst hdm
      exact hR.hiH r p hh d hw n ⟨hd, fun e he => ⟨(hn e).1, (hn e).2.2 (.inl he)⟩⟩
  refine ⟨fun n hn => ?_, fun n hn => ?_, fun n hn => ?_, fun n hn => ?_, fun n hn => ?_, fun n hn => ?_⟩
  · show s.flds r p (EX + (0 : Fin 3), ![n 0, n 1, n 2]) = G.E 0 ![n 0 + S.c.off r p 0, n 1 + S.c.off r p 1, n 2 + S.c.off r p 2]
    rw [v, v', e 0 n hn]
  · show s.flds r p (EX + (1 : Fin 3), ![n 0, n 1, n 2]) = G.E 1 ![n 0 + S.c.off r p 0, n 1 + S.c.off r p 1, n 2 + S.c.off r p 2]
    rw [v, v', e 1 n hn]
  · show s.flds r p (EX + (2 : Fin 3), ![n 0, n 1, n 2]) = G.E 2 ![n 0 + S.c.off r p 0, n 1 + S.c.off r p 1, n 2 + S.c.off r p 2]
    rw [v, v', e 2 n hn]
  · show s.flds r p (HX + (0 : Fin 3), ![n 0, n 1, n 2]) = G.H 0 ![n 0 + S.c.off r p 0, n 1 + S.c.off r p 1, n 2 + S.c.off r p 2]
    rw [v, v', h 0 n hn]
  · show s.flds r p (HX + (1 : Fin 3), ![n 0, n 1, n 2]) = G.H 1 ![n 0 + S.c.off r p 0, n 1 + S.c.off r p 1, n 2 + S.c.off r p 2]
    rw [v, v', h 1 n hn]
  · show s.flds r p (HX + (2 : Fin 3), ![n 0, n 1, n 2]) = G.H 2 ![n 0 + S.c.off r p 0, n 1 + S.c.off r p 1, n 2 + S.c.off r p 2]
    rw [v, v', h 2 n hn]

/-! ### The push in the frame of the whole domain -/

theorem off_inv' {S : Setup} (hF : Fit S) {r p : ℕ} (h : S.c.D.Has r p) (d : Fin 3) (hd : S.cfg.inv d = true) :
    S.c.off r p d = 0 := by
  have := (Props.C25_idx3_owner S.c.D hF.valid.valid r p h).1 d
  have e := (hF.inv d hd).2.1
  unfold Cfg.off
  rw [show S.c.D.idx3 r p d = 0 by omega]
  simp

theorem Scheme.cov {S : Setup} (hS : Scheme S) : Covariant S.cfg S.P := by
  obtain ⟨hc, -⟩ | ⟨hc, -⟩ := hS
  · rw [hc]; exact cov_split_xyz _
  · rw [hc]; exact cov_var1_yz _

/-- moving a particle to the frame of the whole domain commutes with pushing it -/
theorem pushOne_shift {S : Setup} (hF : Fit S) (cov : Covariant S.cfg S.P) {r p : ℕ} (h : S.c.D.Has r p)
    (EM : Interp.Fld ℝ) (q : Push.Prt) :
    (Push.pushOne S.cfg S.P EM (globalPrt S.pic (r, p) q)).1 =
      globalPrt S.pic (r, p) (Push.pushOne S.cfg S.P (shiftF (S.c.off r p) EM) q).1 ∧
    ∀ m g, W (Push.pushOne S.cfg S.P EM (globalPrt S.pic (r, p) q)).2 m g =
      W (Push.pushOne S.cfg S.P (shiftF (S.c.off r p) EM) q).2 m (fun n => g (fun d => n d + S.c.off r p d)) := by
  have ex : ∀ y : R3 ℝ, (fun d => (y d + S.c.off r p d * S.P.dx d) * (1 / S.P.dx d)) =
      fun d => y d * (1 / S.P.dx d) + S.c.off r p d := by
    intro y; funext d
    have := (hF.dx d).ne'
    field_simp
  have hi := cov.interp (fun d => q.x d * (1 / S.P.dx d)) (S.c.off r p) EM (off_inv' hF h)
  have e0 : ∀ q, globalPrt S.pic (r, p) q = { q with x := fun d => q.x d + S.c.off r p d * S.P.dx d } := fun q => rfl
  have e1 : (Push.pushOne S.cfg S.P EM (globalPrt S.pic (r, p) q)).1 =
      globalPrt S.pic (r, p) (Push.pushOne S.cfg S.P (shiftF (S.c.off r p) EM) q).1 := by
    rw [e0, e0]
    unfold Push.pushOne
    simp only [ex, hi]
    congr 1
    funext d
    unfold Push.push_x
    split_ifs <;> ring
  refine ⟨e1, fun m g => ?_⟩
  rw [← W_moveBy]
  refine W_congr (fun i j k => ?_) g
  set v := Push.calc_v (Push.pushOne S.cfg S.P (shiftF (S.c.off r p) EM) q).1.u with hv
  have e2 : (Push.pushOne S.cfg S.P EM (globalPrt S.pic (r, p) q)).2 =
      S.cfg.current S.P q.qw v (fun d => q.x d * (1 / S.P.dx d) + S.c.off r p d)
        (fun d => (Push.pushOne S.cfg S.P (shiftF (S.c.off r p) EM) q).1.x d * (1 / S.P.dx d) + S.c.off r p d) := by
    have : (Push.pushOne S.cfg S.P EM (globalPrt S.pic (r, p) q)).2 = S.cfg.current S.P q.qw
        (Push.calc_v (Push.pushOne S.cfg S.P EM (globalPrt S.pic (r, p) q)).1.u)
        (fun d => (globalPrt S.pic (r, p) q).x d * (1 / S.P.dx d))
        (fun d => (Push.pushOne S.cfg S.P EM (globalPrt S.pic (r, p) q)).1.x d * (1 / S.P.dx d)) := rfl
    rw [this, e1, e0, e0]
    simp only [ex, hv]
  rw [e2, cov.current _ _ _ _ _ (fun d => ?_) (off_inv' hF h)]
  · rfl
  · have hx : (Push.pushOne S.cfg S.P (shiftF (S.c.off r p) EM) q).1.x d =
        if S.cfg.inv d then q.x d else q.x d + 1 * S.P.dt * v d := rfl
    rw [hx, ← sub_mul]
    have hd := hF.dx d
    split_ifs with hi
    · simp
    · have hl := Push.calc_v_lt (Push.pushOne S.cfg S.P (shiftF (S.c.off r p) EM) q).1.u d
      rw [← hv] at hl
      have hdt := hF.dt
      have hc := (hF.act d (by simpa using hi)).2.1
      rw [add_sub_cancel_left, abs_mul, abs_mul, one_mul, abs_of_pos hdt, abs_of_pos (show (0 : ℝ) < 1 / S.P.dx d by positivity),
        mul_one_div, div_lt_one hd]
      nlinarith [abs_nonneg (v d)]

/-- The particles of all patches after the push are the particles pushed on the undivided grid. -/
theorem push_global' {S : Setup} (hF : Fit S) (hS : Scheme S) {prts : ℕ → ℕ → List Push.Prt} (hp : PrtsOk S prts)
    {s : Pic.State} {G : Serial.State} (hR : Represents S s G) :
    globalPrts S.pic (pushPrts S.pic prts s.flds).1 = (Push.pushAll S.cfg S.P (Serial.em G.E G.H) (globalPrts S.pic prts)).1 := by
  rw [pushAll_eq]
  unfold globalPrts
  simp only [List.map_flatMap]
  refine List.flatMap_congr fun rp hrp => ?_
  obtain ⟨r, p⟩ := rp
  have hh := Bndp.mem_allPatches.1 hrp
  show List.map (globalPrt S.pic (r, p)) (Push.pushAll S.cfg S.P (emOf (s.flds r p)) (prts r p)).1 = _
  rw [push_reads hF hS (fun q hq d => (hp r p hh q hq).2.2 d) (hR.agree hF hh), pushAll_eq, List.map_map, List.map_map]
  refine List.map_congr_left fun q _ => ?_
  simp only [Function.comp]
  rw [(pushOne_shift hF hS.cov hh _ q).1]

/-! ### The current -/

/-- the folding of the current at the walls of a patch -/
theorem pullAll_eq (wL wH : Fin 3 → Bool) (L : I3) (m : Fin 3) (φ : I3 → ℝ) (n : I3) (fl M : I3)
    (hfl : fl = fun e => if wL e = true ∧ n e = -1 then (if m = e then 0 else 1) else n e)
    (hM : M = fun e => if wH e = true ∧ fl e = (if m = e then L e else L e + 1) then L e - 1 else fl e) :
    pullAll wL wH L m φ n =
      ((if wL m = true ∧ n m = -1 then -1 else 1) * (if wH m = true ∧ fl m = L m then -1 else 1)) * φ M := by
  unfold pullAll
  simp only [pull_eq]
  have e1 : put (put (put n 0 (fl 0)) 1 (fl 1)) 2 (fl 2) = fl := by
    funext e; fin_cases e <;> simp [put, Function.update_apply]
  have e2 : put (put (put fl 0 (M 0)) 1 (M 1)) 2 (M 2) = M := by
    funext e; fin_cases e <;> simp [put, Function.update_apply]
  have p0 : ∀ x y : ℤ, put (put n 0 x) 1 y 2 = n 2 := fun x y => by simp [put, Function.update_apply]
  have p1 : ∀ x : ℤ, put n 0 x 1 = n 1 := fun x => by simp [put, Function.update_apply]
  have p2 : ∀ x y : ℤ, put (put fl 0 x) 1 y 2 = fl 2 := fun x y => by simp [put, Function.update_apply]
  have p3 : ∀ x : ℤ, put fl 0 x 1 = fl 1 := fun x => by simp [put, Function.update_apply]
  have f : ∀ e, (if wL e = true ∧ n e = -1 then (if m = e then (0 : ℤ) else 1) else n e) = fl e := fun e => by rw [hfl]
  have g : ∀ e, (if wH e = true ∧ fl e = (if m = e then L e else L e + 1) then L e - 1 else fl e) = M e :=
    fun e => by rw [hM]
  simp only [p0, p1, f, e1, p2, p3, g, e2]
  fin_cases m <;> simp [ite_self] <;> ring

/-- the test function of the current at cell `x` of the box -/
def psi (Q : SerialWall.Box) (m : Fin 3) (x n : I3) : ℝ :=
  if (fun d => Q.mirror m d (n d)) = (fun d => if Q.per d then x d % Q.gdims d else x d) then Q.sign m (n m) else 0

theorem current_eq_W (Q : SerialWall.Box) (evs : List (Add ℝ)) (m : Fin 3) (x : I3) : Q.current evs m x = W evs m (psi Q m x) := by
  unfold SerialWall.Box.current W
  refine congrArg List.sum (List.map_congr_left fun e _ => ?_)
  have h : ∀ d, ![e.i, e.j, e.k] d = at_ e d := fun d => rfl
  simp only [h]
  unfold psi
  by_cases h1 : e.m = m <;>
    by_cases h2 : (fun d => Q.mirror m d (at_ e d)) = (fun d => if Q.per d then x d % Q.gdims d else x d) <;> simp [h1, h2]

theorem off_two {S : Setup} (hF : Fit S) {r p : ℕ} (hh : S.c.D.Has r p) (d : Fin 3) :
    (S.c.off r p d = 0 ∨ S.c.ldims d ≤ S.c.off r p d) ∧
    (S.c.off r p d + S.c.ldims d = S.c.gdims d ∨ S.c.off r p d + 2 * S.c.ldims d ≤ S.c.gdims d) := by
  have h1 := (Props.C25_idx3_owner S.c.D hF.valid.valid r p hh).1 d
  have hL : 0 ≤ S.c.ldims d := by have := (hF.valid.ibn d); omega
  unfold Cfg.off Cfg.gdims
  constructor
  · rcases Nat.eq_zero_or_pos (S.c.D.idx3 r p d) with h0 | h0
    · left; rw [h0]; simp
    · right
      have : (1 : ℤ) ≤ S.c.D.idx3 r p d := by exact_mod_cast h0
      nlinarith
  · rcases (Nat.succ_le_of_lt h1).eq_or_lt with h0 | h0
    · left
      have : (S.c.D.np d : ℤ) = S.c.D.idx3 r p d + 1 := by exact_mod_cast h0.symm
      rw [this]; ring
    · right
      have : (S.c.D.idx3 r p d : ℤ) + 2 ≤ S.c.D.np d := by
        have : S.c.D.idx3 r p d + 2 ≤ S.c.D.np d := by omega
        exact_mod_cast this
      nlinarith

theorem mir_val {b : Bool} {m d : Fin 3} {o L g n : ℤ} (h2 : b = false → 2 ≤ L)
    (hj : b = false → -1 ≤ n ∧ n ≤ L + 1 ∧ (d = m → n ≤ L)) (oc : (o = 0 ∨ L ≤ o) ∧ (o + L = g ∨ o + 2 * L ≤ g)) :
    (if b = true then (o + if (b = false ∧ o + L = g) ∧ (if (b = false ∧ o = 0) ∧ n = -1 then if m = d then 0 else 1 else n) =
          if m = d then L else L + 1 then L - 1 else if (b = false ∧ o = 0) ∧ n = -1 then if m = d then 0 else 1 else n) % g
      else o + if (b = false ∧ o + L = g) ∧ (if (b = false ∧ o = 0) ∧ n = -1 then if m = d then 0 else 1 else n) =
          if m = d then L else L + 1 then L - 1 else if (b = false ∧ o = 0) ∧ n = -1 then if m = d then 0 else 1 else n) =
    if b = true then (n + o) % g
    else if n + o < 0 then (if m = d then -1 - (n + o) else -(n + o))
    else if m = d then (if g ≤ n + o then 2 * g - 1 - (n + o) else n + o)
    else if g < n + o then 2 * g - (n + o) else n + o := by
  cases b with
  | true =>
    simp only [Bool.true_eq_false, false_and, if_false, if_true]
    rw [add_comm]
  | false =>
    have h2 := h2 rfl
    have hj := hj rfl
    simp only [true_and, Bool.false_eq_true, if_false]
    by_cases hmd : m = d
    · have := hj.2.2 hmd.symm
      simp only [if_pos hmd]
      by_cases h1 : o = 0 ∧ n = -1
      · rw [if_pos h1, if_neg (by omega), if_pos (by omega)]; omega
      · rw [if_neg h1]
        by_cases h2 : o + L = g ∧ n = L
        · rw [if_pos h2, if_neg (by omega), if_pos (by omega)]; omega
        · rw [if_neg h2, if_neg (by omega), if_neg (by omega)]; omega
    · simp only [if_neg hmd]
      by_cases h1 : o = 0 ∧ n = -1
      · rw [if_pos h1, if_neg (by omega), if_pos (by omega)]; omega
      · rw [if_neg h1]
        by_cases h2 : o + L = g ∧ n = L + 1
        · rw [if_pos h2, if_neg (by omega), if_pos (by omega)]; omega
        · rw [if_neg h2, if_neg (by omega), if_neg (by omega)]; omega

/-- folding the current at the walls of a patch is mirroring it at the walls of the box -/
theorem pull_psi {S : Setup} (hF : Fit S) (hC : Closed S) {r p : ℕ} (hh : S.c.D.Has r p) (rad : Option (Radiation ℝ)) {m : Fin 3}
    {n : I3} (hn : JIn S.c S.cfg.inv m n) (x : I3) :
    pullAll (wallLo S.c (S.bnd rad) r p) (wallHi S.c (S.bnd rad) r p) S.c.ldims m (Pic.ind S.c (r, p) x) n =
      psi S.box m x (fun d => n d + S.c.off r p d) := by
  rw [pullAll_eq _ _ _ _ _ _ _ _ rfl rfl]
  have lo : ∀ d, wallLo S.c (S.bnd rad) r p d = true ↔ S.c.D.bc d = false ∧ S.c.off r p d = 0 := by
    intro d
    unfold wallLo
    rw [Bool.and_eq_true, atLo_iff, beq_iff_eq, show (S.bnd rad).fld_lo d = S.fld_lo d from rfl]
    constructor
    · rintro ⟨a, b⟩
      exact ⟨((hF.fitsB rad).lo_dir (d := d) (by show S.fld_lo d ≠ _; rw [b]; decide)).2, a⟩
    · rintro ⟨a, b⟩; exact ⟨b, (hC.walls hF a).2.1.1⟩
  have hi : ∀ d, wallHi S.c (S.bnd rad) r p d = true ↔ S.c.D.bc d = false ∧ S.c.off r p d + S.c.ldims d = S.c.gdims d := by
    intro d
    unfold wallHi
    rw [Bool.and_eq_true, atHi_iff, beq_iff_eq, show (S.bnd rad).fld_hi d = S.fld_hi d from rfl]
    constructor
    · rintro ⟨a, b⟩
      exact ⟨((hF.fitsB rad).hi_dir (d := d) (by show S.fld_hi d ≠ _; rw [b]; decide)).2, a⟩
    · rintro ⟨a, b⟩; exact ⟨b, (hC.walls hF a).2.1.2⟩
  have oc : ∀ d, (S.c.off r p d = 0 ∨ S.c.ldims d ≤ S.c.off r p d) ∧ (S.c.off r p d + S.c.ldims d = S.c.gdims d ∨
      S.c.off r p d + 2 * S.c.ldims d ≤ S.c.gdims d) := off_two hF hh
  have l2 : ∀ d, S.c.D.bc d = false → 2 ≤ S.c.ldims d := by
    intro d hb
    have hi := (hC.walls hF hb).1
    have := (hF.act d hi).1
    have := (hF.valid.ibn d).2
    omega
  simp only [lo, hi]
  have sg : (if (S.c.D.bc m = false ∧ S.c.off r p m = 0) ∧ n m = -1 then (-1 : ℝ) else 1) *
      (if (S.c.D.bc m = false ∧ S.c.off r p m + S.c.ldims m = S.c.gdims m) ∧
        (if (S.c.D.bc m = false ∧ S.c.off r p m = 0) ∧ n m = -1 then (if True then 0 else 1) else n m) = S.c.ldims m then -1 else 1) =
      S.box.sign m (n m + S.c.off r p m) := by
    unfold SerialWall.Box.sign
    change _ = if S.c.D.bc m = false ∧ (n m + S.c.off r p m < 0 ∨ S.c.gdims m ≤ n m + S.c.off r p m) then (-1 : ℝ) else 1
    cases hb : S.c.D.bc m with
    | true => simp
    | false =>
      have := l2 m hb
      have hj := (hn m).2 (hC.walls hF hb).1
      have := oc m
      simp only [true_and]
      have hj3 := hj.2.2 rfl
      by_cases h1 : S.c.off r p m = 0 ∧ n m = -1
      · rw [if_pos h1, if_pos h1, if_pos trivial, if_neg (by omega), if_pos (by omega)]; ring
      · rw [if_neg h1, if_neg h1]
        by_cases h2 : S.c.off r p m + S.c.ldims m = S.c.gdims m ∧ n m = S.c.ldims m
        · rw [if_pos h2, if_pos (by omega)]; ring
        · rw [if_neg h2, if_neg (by omega)]; ring
  rw [sg]
  unfold psi Pic.ind
  have hv : (phys S.c r p (fun e =>
      if (S.c.D.bc e = false ∧ S.c.off r p e + S.c.ldims e = S.c.gdims e) ∧
          (if (S.c.D.bc e = false ∧ S.c.off r p e = 0) ∧ n e = -1 then (if m = e then 0 else 1) else n e) =
            (if m = e then S.c.ldims e else S.c.ldims e + 1)
      then S.c.ldims e - 1
      else if (S.c.D.bc e = false ∧ S.c.off r p e = 0) ∧ n e = -1 then (if m = e then 0 else 1) else n e)) =
      fun d => S.box.mirror m d (n d + S.c.off r p d) := by
    funext d
    unfold phys SerialWall.Box.mirror
    change (if S.c.D.bc d = true then (S.c.off r p d + _) % S.c.gdims d else S.c.off r p d + _) =
      if S.c.D.bc d = true then (n d + S.c.off r p d) % S.c.gdims d
      else if n d + S.c.off r p d < 0 then (if m = d then -1 - (n d + S.c.off r p d) else -(n d + S.c.off r p d))
      else if m = d then (if S.c.gdims d ≤ n d + S.c.off r p d then 2 * S.c.gdims d - 1 - (n d + S.c.off r p d) else n d + S.c.off r p d)
      else if S.c.gdims d < n d + S.c.off r p d then 2 * S.c.gdims d - (n d + S.c.off r p d) else n d + S.c.off r p d
    exact mir_val (fun hb => l2 d hb) (fun hb => (hn d).2 (hC.walls hF hb).1) (oc d)
  have hw : wrap S.c x = fun d => if S.box.per d then x d % S.box.gdims d else x d := rfl
  simp only [hv, hw]
  split_ifs <;> simp

theorem Sound.jin' {S : Setup} (hF : Fit S) (hS : Sound S) {prts : ℕ → ℕ → List Push.Prt} (flds : Glob ℝ) (hp : PrtsOk S prts)
    {r p : ℕ} (hh : S.c.D.Has r p) : ∀ e ∈ (Push.pushAll S.cfg S.P (emOf (flds r p)) (prts r p)).2, JIn S.c S.cfg.inv e.m (at_ e) :=
  hS.jin (emOf (flds r p)) (prts r p) fun q hq d => (hp r p hh q hq).2.2 d

theorem W_congr_on {evs : List (Add ℝ)} {m : Fin 3} {f g : I3 → ℝ} (h : ∀ e ∈ evs, e.m = m → f (at_ e) = g (at_ e)) :
    W evs m f = W evs m g := by
  unfold W
  refine congrArg List.sum (List.map_congr_left fun e he => ?_)
  by_cases hm : e.m = m
  · simp only [if_pos hm, h e he hm]
  · simp only [if_neg hm]

/-- The current of all patches, folded at the walls, is the mirrored current of all particles in the box. -/
theorem current_global {S : Setup} (hF : Fit S) (hS : Scheme S) (hC : Closed S) {prts : ℕ → ℕ → List Push.Prt} (hp : PrtsOk S prts)
    {s : Pic.State} {G : Serial.State} (hR : Represents S s G) (rad : Option (Radiation ℝ)) (m : Fin 3) (x : I3) :
    currentB S.c S.g (S.bnd rad) (pushPrts S.pic prts s.flds).2 m x =
      S.box.current (Push.pushAll S.cfg S.P (Serial.em G.E G.H) (globalPrts S.pic prts)).2 m x := by
  rw [current_W hF (hS.sound hF) s.flds hp, sum_patches, current_eq_W, pushAll_eq, W_flatMap]
  unfold globalPrts
  rw [Pic.sum_flatMap]
  refine congrArg List.sum (List.map_congr_left fun rp hrp => ?_)
  obtain ⟨r, p⟩ := rp
  have hh := Bndp.mem_allPatches.1 hrp
  have h1 := Sound.jin' hF (hS.sound hF) s.flds hp hh
  simp only
  rw [W_congr_on (m := m) (g := fun n => psi S.box m x (fun d => n d + S.c.off r p d)) fun e he hm =>
    pull_psi hF hC hh rad (show JIn S.c S.cfg.inv m (at_ e) from hm ▸ h1 e he) x]
  rw [push_reads hF hS (fun q hq d => (hp r p hh q hq).2.2 d) (hR.agree hF hh), pushAll_eq, W_flatMap, List.map_map]
  refine congrArg List.sum (List.map_congr_left fun q _ => ?_)
  simp only [Function.comp]
  rw [(pushOne_shift hF hS.cov hh _ q).2]

/-! ### The exchange of particles -/

theorem len_pos {S : Setup} (hF : Fit S) {r p : ℕ} (h : S.c.D.Has r p) (d : Fin 3) : 0 < S.box.len d := by
  have h1 := off_range (hF.fitsB none) h d
  have h2 := hF.pos d
  exact mul_pos (by exact_mod_cast (show 0 < S.c.gdims d by omega)) (hF.dx d)

open Classical in
/-- a particle in its patch is in the box -/
theorem back_inside {S : Setup} (hF : Fit S) {r p : ℕ} (h : S.c.D.Has r p) {q : Push.Prt}
    (hq : ∀ d, 0 ≤ q.x d ∧ q.x d < S.c.ldims d * S.P.dx d) :
    S.box.back (globalPrt S.pic (r, p) q) = globalPrt S.pic (r, p) q := by
  have b : ∀ d, 0 ≤ (globalPrt S.pic (r, p) q).x d ∧ (globalPrt S.pic (r, p) q).x d < S.box.len d := by
    intro d
    change 0 ≤ q.x d + S.c.off r p d * S.P.dx d ∧ q.x d + S.c.off r p d * S.P.dx d < S.c.gdims d * S.P.dx d
    obtain ⟨a, b⟩ := hq d
    have hdx := hF.dx d
    obtain ⟨o1, o2⟩ := off_range (hF.fitsB none) h d
    have ho : (0 : ℝ) ≤ S.c.off r p d := by exact_mod_cast o1
    have hu : (S.c.off r p d : ℝ) + S.c.ldims d ≤ S.c.gdims d := by exact_mod_cast o2
    constructor
    · positivity
    · nlinarith
  refine prt_ext (funext fun d => ?_) (funext fun d => ?_) rfl rfl
  · show (if S.box.per d = true then _ else _) = _
    have hf : ⌊(globalPrt S.pic (r, p) q).x d / S.box.len d⌋ = 0 := by
      rw [Int.floor_eq_zero_iff]
      exact ⟨div_nonneg (b d).1 (len_pos hF h d).le, (div_lt_one (len_pos hF h d)).2 (b d).2⟩
    rw [hf, if_neg (not_lt.2 (b d).1), if_neg (not_lt.2 (b d).2.le)]
    split_ifs <;> simp
  · show (if S.box.Behind d _ then _ else _) = _
    rw [if_neg]
    rintro ⟨-, h1 | h1⟩
    · exact absurd (b d).1 (not_le.2 h1)
    · exact absurd (b d).2.le (not_le.2 h1)

open Classical in
/-- A particle exactly on an upper wall is turned around and put a little below the wall. -/
def bounce (S : Setup) (rp : ℕ × ℕ) (q : Push.Prt) : Push.Prt :=
  { q with
    x := fun d => if S.prt_hi d = .reflecting ∧ S.c.off rp.1 rp.2 d * S.P.dx d + q.x d = S.c.gdims d * S.P.dx d then
      S.c.ldims d * S.P.dx d * (1 - 1 / 1000000) else q.x d
    u := fun d => if S.prt_hi d = .reflecting ∧ S.c.off rp.1 rp.2 d * S.P.dx d + q.x d = S.c.gdims d * S.P.dx d then
      -q.u d else q.u d }

theorem bounce_eq {S : Setup} {r p : ℕ} {q : Push.Prt}
    (h : ∀ d, S.prt_hi d = .reflecting → S.c.off r p d * S.P.dx d + q.x d ≠ S.c.gdims d * S.P.dx d) : bounce S (r, p) q = q :=
  prt_ext (funext fun d => if_neg fun ⟨a, b⟩ => h d a b) (funext fun d => if_neg fun ⟨a, b⟩ => h d a b) rfl rfl

theorem bounce_inside {S : Setup} (hF : Fit S) {r p : ℕ} (hh : S.c.D.Has r p) {q : Push.Prt}
    (h : ∀ d, q.x d < S.c.ldims d * S.P.dx d) : bounce S (r, p) q = q := by
  refine bounce_eq fun d _ e => ?_
  have := h d
  have o2 : (S.c.off r p d : ℝ) + S.c.ldims d ≤ S.c.gdims d := by exact_mod_cast (off_range (hF.fitsB none) hh d).2
  have hdx := hF.dx d
  nlinarith

open Classical in
/-- what the exchange does to a particle is what the box does to it, except exactly on an upper wall -/
theorem back_fate {S : Setup} (hF : Fit S) (hC : Closed S) {r p r' p' : ℕ} (hh : S.c.D.Has r p) (hh' : S.c.D.Has r' p')
    {q q' : Push.Prt} (hx1 : ∀ d, -S.P.dx d < q.x d ∧ q.x d < (S.c.ldims d + 1) * S.P.dx d)
    (hx' : ∀ d, 0 ≤ q'.x d ∧ q'.x d < S.c.ldims d * S.P.dx d) (dir : I3)
    (hw : q'.qw = q.qw) (hk : q'.kind = q.kind)
    (h : ∀ d,
      (¬ Bndp.HitLo (S.pic.ex.patch r p) q.x d → ¬ Bndp.HitHi (S.pic.ex.patch r p) q.x d →
        q'.x d + dir d * (S.pic.ex.patch r p).size d = q.x d ∧ q'.u d = q.u d) ∧
      (Bndp.HitLo (S.pic.ex.patch r p) q.x d → dir d = 0 ∧ q'.x d = -q.x d ∧ q'.u d = -q.u d) ∧
      (Bndp.HitHi (S.pic.ex.patch r p) q.x d → dir d = 0 ∧ q'.u d = -q.u d ∧
        q'.x d = if q.x d = (S.pic.ex.patch r p).size d then (S.pic.ex.patch r p).size d * (1 - 1 / 1000000)
          else 2 * (S.pic.ex.patch r p).size d - q.x d))
    (hd : ∀ d, ∃ k : ℤ, (S.c.D.bc d = false → k = 0) ∧ S.c.off r' p' d = S.c.off r p d + dir d * S.c.ldims d + k * S.c.gdims d) :
    S.box.back (globalPrt S.pic (r', p') q') = S.box.back (globalPrt S.pic (r, p) (bounce S (r, p) q)) := by
  rw [back_inside hF hh' hx']
  have key : ∀ d, (globalPrt S.pic (r', p') q').x d = (S.box.back (globalPrt S.pic (r, p) (bounce S (r, p) q))).x d ∧
      q'.u d = (S.box.back (globalPrt S.pic (r, p) (bounce S (r, p) q))).u d := by
    intro d
    obtain ⟨k, hk0, ho⟩ := hd d
    have ho' : (S.c.off r' p' d : ℝ) = S.c.off r p d + dir d * S.c.ldims d + k * S.c.gdims d := by exact_mod_cast ho
    obtain ⟨n1, n2, n3⟩ := h d
    have hdx := hF.dx d
    obtain ⟨o1, o2⟩ := off_range (hF.fitsB none) hh d
    have hs : (S.pic.ex.patch r p).size d = S.c.ldims d * S.P.dx d := rfl
    have hlo : (S.pic.ex.patch r p).atLo d = true ↔ S.c.off r p d = 0 := decide_eq_true_iff
    have hhi : (S.pic.ex.patch r p).atHi d = true ↔ S.c.off r p d + S.c.ldims d = S.c.gdims d := decide_eq_true_iff
    have hpl : (S.pic.ex.patch r p).prt_lo d = S.prt_lo d := rfl
    have hph : (S.pic.ex.patch r p).prt_hi d = S.prt_hi d := rfl
    have ev : ∀ v w : ℝ, v = (bounce S (r, p) q).x d + S.c.off r p d * S.P.dx d → w = (bounce S (r, p) q).u d →
        (S.box.back (globalPrt S.pic (r, p) (bounce S (r, p) q))).x d =
        (if S.c.D.bc d = true then v - ⌊v / S.box.len d⌋ * S.box.len d
          else if v < 0 then -v else if S.box.len d < v then 2 * S.box.len d - v else v) ∧
        (S.box.back (globalPrt S.pic (r, p) (bounce S (r, p) q))).u d = if S.box.Behind d v then -w else w := by
      rintro v w rfl rfl; exact ⟨rfl, rfl⟩
    have hl : S.box.len d = S.c.gdims d * S.P.dx d := rfl
    have hL : (1 : ℝ) ≤ S.c.ldims d := by exact_mod_cast hF.pos d
    by_cases hex : S.prt_hi d = .reflecting ∧ S.c.off r p d * S.P.dx d + q.x d = S.c.gdims d * S.P.dx d
    · -- exactly on the wall
      have hb : S.c.D.bc d = false := by
        cases hi : S.cfg.inv d with
        | true => have := (hF.inv d hi).2.2.2.2.1.2; rw [hex.1] at this; cases this
        | false =>
          rcases (hF.act d hi).2.2 with ⟨-, ⟨-, a⟩, -⟩ | ⟨a, -⟩
          · rw [hex.1] at a; cases a
          · exact a
      have t : S.c.off r p d + S.c.ldims d = S.c.gdims d := by
        rcases (off_two hF hh d).2 with t | t
        · exact t
        · exfalso
          have t' : (S.c.off r p d : ℝ) + 2 * S.c.ldims d ≤ S.c.gdims d := by exact_mod_cast t
          have := (hx1 d).2
          have := hex.2
          nlinarith
      have t' : (S.c.off r p d : ℝ) + S.c.ldims d = S.c.gdims d := by exact_mod_cast t
      have hxe : q.x d = S.c.ldims d * S.P.dx d := by
        have := hex.2
        rw [← t'] at this
        linarith
      obtain ⟨e0, e1, e2⟩ := n3 ⟨by rw [hs]; exact hxe.ge, hhi.2 t, hex.1⟩
      rw [hs, if_pos hxe] at e2
      rw [e0, hk0 hb] at ho'
      have o1' : (0 : ℝ) ≤ S.c.off r p d := by exact_mod_cast o1
      obtain ⟨ex, eu⟩ := ev (S.c.ldims d * S.P.dx d * (1 - 1 / 1000000) + S.c.off r p d * S.P.dx d) (-q.u d)
        (congrArg (fun v => v + S.c.off r p d * S.P.dx d) (show _ = (bounce S (r, p) q).x d from (if_pos hex).symm))
        (show _ = (bounce S (r, p) q).u d from (if_pos hex).symm)
      have hp : 0 < S.c.ldims d * S.P.dx d := mul_pos (by linarith) hdx
      have hv0 : ¬ S.c.ldims d * S.P.dx d * (1 - 1 / 1000000) + S.c.off r p d * S.P.dx d < 0 := by
        have : 0 ≤ (S.c.off r p d : ℝ) * S.P.dx d := by positivity
        rw [not_lt]; nlinarith
      have hv1 : ¬ S.box.len d < S.c.ldims d * S.P.dx d * (1 - 1 / 1000000) + S.c.off r p d * S.P.dx d := by
        rw [hl, ← t', not_lt]; nlinarith
      rw [ex, eu, if_neg (by rw [hb]; decide), if_neg hv0, if_neg hv1, if_neg (by rintro ⟨-, z | z⟩; exacts [hv0 z, hv1 z])]
      refine ⟨?_, e1⟩
      change q'.x d + S.c.off r' p' d * S.P.dx d = _
      rw [e2, ho']; push_cast; ring
    have how : S.prt_hi d = .reflecting → S.c.off r p d * S.P.dx d + q.x d ≠ S.c.gdims d * S.P.dx d := fun a b => hex ⟨a, b⟩
    obtain ⟨ex, eu⟩ := ev (q.x d + S.c.off r p d * S.P.dx d) (q.u d)
      (congrArg (fun v => v + S.c.off r p d * S.P.dx d) (show _ = (bounce S (r, p) q).x d from (if_neg hex).symm))
      (show _ = (bounce S (r, p) q).u d from (if_neg hex).symm)
    rw [ex, eu]
    change q'.x d + S.c.off r' p' d * S.P.dx d = _ ∧ _
    have hbe : S.box.Behind d (q.x d + S.c.off r p d * S.P.dx d) ↔
      S.c.D.bc d = false ∧ (q.x d + S.c.off r p d * S.P.dx d < 0 ∨ S.box.len d < q.x d + S.c.off r p d * S.P.dx d) := Iff.rfl
    obtain ⟨x1, x2⟩ := hx1 d
    cases hb : S.c.D.bc d with
    | true =>
      have hper : S.prt_lo d = .periodic ∧ S.prt_hi d = .periodic := by
        cases hi : S.cfg.inv d with
        | true => exact (hF.inv d hi).2.2.2.2.1
        | false =>
          rcases (hF.act d hi).2.2 with ⟨-, a, -⟩ | ⟨a, -⟩
          · exact a
          · rw [hb] at a; cases a
      obtain ⟨e1, e2⟩ := n1 (by rintro ⟨-, -, a⟩; rw [hpl, hper.1] at a; cases a) (by rintro ⟨-, -, a⟩; rw [hph, hper.2] at a; cases a)
      rw [hs] at e1
      have hin := back_inside hF hh' hx'
      have h0 : (S.box.back (globalPrt S.pic (r', p') q')).x d = q'.x d + S.c.off r' p' d * S.P.dx d := by rw [hin]; rfl
      have h1 : (S.box.back (globalPrt S.pic (r', p') q')).x d = if S.c.D.bc d = true then
        (q'.x d + S.c.off r' p' d * S.P.dx d) - ⌊(q'.x d + S.c.off r' p' d * S.P.dx d) / S.box.len d⌋ * S.box.len d else
          if q'.x d + S.c.off r' p' d * S.P.dx d < 0 then -(q'.x d + S.c.off r' p' d * S.P.dx d) else
          if S.box.len d < q'.x d + S.c.off r' p' d * S.P.dx d then 2 * S.box.len d - (q'.x d + S.c.off r' p' d * S.P.dx d)
          else q'.x d + S.c.off r' p' d * S.P.dx d := rfl
      rw [if_pos hb, h0] at h1
      refine ⟨?_, ?_⟩
      · rw [if_pos rfl]
        refine h1.trans (wrapX_unique (len_pos hF hh d) k ?_)
        rw [hl, ho', ← e1]; ring
      · rw [if_neg (by rw [hbe, hb]; rintro ⟨a, -⟩; cases a), e2]
    | false =>
      rw [hk0 hb] at ho'
      obtain ⟨hi, -, rl, rh⟩ := hC.walls hF hb
      rw [if_neg (by decide : ¬ (false = true))]
      have o1' : (0 : ℝ) ≤ S.c.off r p d := by exact_mod_cast o1
      have o2' : (S.c.off r p d : ℝ) + S.c.ldims d ≤ S.c.gdims d := by exact_mod_cast o2
      obtain ⟨t1, t2⟩ := off_two hF hh d
      have plain : ¬ Bndp.HitLo (S.pic.ex.patch r p) q.x d → ¬ Bndp.HitHi (S.pic.ex.patch r p) q.x d →
          0 ≤ q.x d + S.c.off r p d * S.P.dx d → q.x d + S.c.off r p d * S.P.dx d ≤ S.box.len d →
          q'.x d + S.c.off r' p' d * S.P.dx d = (if q.x d + S.c.off r p d * S.P.dx d < 0 then -(q.x d + S.c.off r p d * S.P.dx d)
            else if S.box.len d < q.x d + S.c.off r p d * S.P.dx d then 2 * S.box.len d - (q.x d + S.c.off r p d * S.P.dx d)
            else q.x d + S.c.off r p d * S.P.dx d) ∧
          q'.u d = if S.box.Behind d (q.x d + S.c.off r p d * S.P.dx d) then -q.u d else q.u d := by
        intro a b c e
        obtain ⟨e1, e2⟩ := n1 a b
        rw [hs] at e1
        rw [if_neg (not_lt.2 c), if_neg (not_lt.2 e), if_neg (by rw [hbe]; rintro ⟨-, z | z⟩ <;> linarith)]
        refine ⟨?_, e2⟩
        rw [ho', ← e1]; push_cast; ring
      by_cases c1 : q.x d < 0
      · have nh : ¬ Bndp.HitHi (S.pic.ex.patch r p) q.x d := by
          rintro ⟨a, -⟩; rw [hs] at a; nlinarith
        rcases t1 with t | t
        · obtain ⟨e0, e1, e2⟩ := n2 ⟨c1, hlo.2 t, rl⟩
          rw [t, e0] at ho'
          have z : (q.x d + (S.c.off r p d : ℝ) * S.P.dx d) = q.x d := by rw [t]; simp
          rw [z, if_pos c1, if_pos ((by rw [z] at hbe; exact hbe.2 ⟨hb, .inl c1⟩)), ho', e1]
          exact ⟨by push_cast; ring, e2⟩
        · have t' : (S.c.ldims d : ℝ) ≤ S.c.off r p d := by exact_mod_cast t
          have := hF.pos d
          refine plain (by rintro ⟨-, a, -⟩; have := hlo.1 a; omega) nh (by nlinarith) (by rw [hl]; nlinarith)
      · have nl : ¬ Bndp.HitLo (S.pic.ex.patch r p) q.x d := by rintro ⟨a, -⟩; exact c1 a
        rw [not_lt] at c1
        by_cases c2 : q.x d < S.c.ldims d * S.P.dx d
        · refine plain nl (by rintro ⟨a, -⟩; rw [hs] at a; linarith) (by positivity) (by rw [hl]; nlinarith)
        · rw [not_lt] at c2
          rcases t2 with t | t
          · obtain ⟨e0, e1, e2⟩ := n3 ⟨by rw [hs]; exact c2, hhi.2 t, rh⟩
            have hne : q.x d ≠ S.c.ldims d * S.P.dx d := by
              intro e
              refine how rh ?_
              rw [e, ← t]; push_cast; ring
            have hlt := lt_of_le_of_ne c2 (Ne.symm hne)
            rw [hs, if_neg hne] at e2
            have t' : (S.c.off r p d : ℝ) + S.c.ldims d = S.c.gdims d := by exact_mod_cast t
            have hv : S.box.len d < q.x d + S.c.off r p d * S.P.dx d := by rw [hl, ← t']; linarith
            rw [if_neg (not_lt.2 (by positivity)), if_pos hv, if_pos (hbe.2 ⟨hb, .inr hv⟩), e1, e2, ho', e0, hl, ← t']
            exact ⟨by push_cast; ring, rfl⟩
          · have t' : (S.c.off r p d : ℝ) + 2 * S.c.ldims d ≤ S.c.gdims d := by exact_mod_cast t
            have := hF.pos d
            refine plain nl (by rintro ⟨-, a, -⟩; have := hhi.1 a; omega) (by positivity) (by rw [hl]; nlinarith)
  exact prt_ext (funext fun d => (key d).1) (funext fun d => (key d).2) hw hk

theorem fate_in {g : Bndp.PatchP ℝ} (hg : g.Ok) {b b' : Bndp.Prt ℝ (ℝ × ℕ)} (hn : Bndp.Near g b.x) {dir : I3}
    (h : Bndp.process1 g b = some (.send dir b') ∨ Bndp.process1 g b = some (.keep b')) (d : Fin 3) :
    0 ≤ b'.x d ∧ b'.x d < g.size d := by
  have e : b'.x = Bndp.newX g b.x := by
    rw [Bndp.process1_eq hg hn] at h
    unfold Bndp.fate at h
    by_cases h1 : Bndp.Leaves g b.x
    · simp [h1] at h
    · by_cases h2 : IsZero (Bndp.newDir g b.x)
      · simp [h1, h2] at h; rw [← h]
      · simp [h1, h2] at h; rw [← h.2]
  rw [e]
  exact Bndp.newX_mem hg hn d

/-- The exchange of particles is moving them back into the box, those exactly on an upper wall a little below it. -/
theorem exchange_bounce {S : Setup} (hF : Fit S) (hC : Closed S) {prts : ℕ → ℕ → List Push.Prt} (hn : Near1 S prts) :
    ∃ T, exchangePrts S.pic prts = some T ∧ PrtsOk S T ∧
      (globalPrts S.pic T).Perm ((globalPrts S.pic fun r p => (prts r p).map (bounce S (r, p))).map S.box.back) := by
  set g := S.pic.ex with hg
  set pB : ℕ → ℕ → List (Bndp.Prt ℝ (ℝ × ℕ)) := fun r p => (prts r p).map toB with hpB
  have hD : g.D.Valid := hF.valid.valid
  have hok : ∀ d, 0 < g.ldims d ∧ 0 < g.dx d := fun d => ⟨hF.pos d, hF.dx d⟩
  have mem : ∀ r p (b : Bndp.Prt ℝ (ℝ × ℕ)), b ∈ pB r p → ∃ q ∈ prts r p, toB q = b := fun r p b hb => List.mem_map.1 hb
  have near : Bndp.AllNear g pB := by
    intro r p hh b hb d
    obtain ⟨q, hq', rfl⟩ := mem r p b hb
    obtain ⟨⟨a1, a2⟩, a3⟩ := (hn r p hh q hq').2 d
    have hdx := hF.dx d
    have hL : (1 : ℝ) ≤ S.c.ldims d := by exact_mod_cast hF.pos d
    change -(S.c.ldims d * S.P.dx d) < q.x d ∧ q.x d < 2 * (S.c.ldims d * S.P.dx d)
    constructor <;> nlinarith
  have bcs : ∀ d, (g.prt_lo d = .reflecting ∧ g.prt_hi d = .reflecting) ∨ (g.prt_lo d = .periodic ∧ g.prt_hi d = .periodic) := by
    intro d
    cases hb : S.c.D.bc d with
    | false => exact .inl (hC.walls hF hb).2.2
    | true =>
      cases hi : S.cfg.inv d with
      | true => exact .inr (hF.inv d hi).2.2.2.2.1
      | false =>
        rcases (hF.act d hi).2.2 with ⟨-, a, -⟩ | ⟨a, -⟩
        · exact .inr a
        · rw [hb] at a; cases a
  have hper : ∀ d, g.prt_lo d = .periodic ∨ g.prt_hi d = .periodic → g.D.bc d = true ∨
      ∀ r p, g.D.Has r p → ∀ q ∈ pB r p, 0 ≤ q.x d ∧ q.x d < (g.patch r p).size d := by
    intro d hp
    cases hd : S.cfg.inv d
    · rcases (hF.act d hd).2.2 with ⟨a, -⟩ | ⟨-, a, b⟩
      · exact Or.inl a
      · have s : ∀ p f, Side d p f → p ≠ .periodic := by intro p f hs; cases hs <;> decide
        rcases hp with hp | hp
        · exact absurd hp (s _ _ a)
        · exact absurd hp (s _ _ b)
    · refine Or.inr fun r p hh b hb => ?_
      obtain ⟨q, hq', rfl⟩ := mem r p b hb
      exact ((hn r p hh q hq').2 d).2 hd
  obtain ⟨T, hT, hin, hperm⟩ := Props.C19_exchange_conserves_partial g hD hok pB near hper
  have hex : exchangePrts S.pic prts = some fun r p => (((Bndp.exchange g pB r).getD fun _ => []) p).map ofB := by
    unfold exchangePrts
    rw [if_pos]
    intro r hr
    show (Bndp.exchange g pB r).isSome = true
    rw [hT r (List.mem_range.1 hr)]
    rfl
  have eT : ∀ r p, S.c.D.Has r p → (((Bndp.exchange g pB r).getD fun _ => []) p).map ofB = (T r p).map ofB := by
    intro r p hh
    rw [hT r hh.1]; rfl
  refine ⟨_, hex, ?_, ?_⟩
  · intro r p hh q hq'
    simp only [eT r p hh] at hq'
    obtain ⟨b, hb, rfl⟩ := List.mem_map.1 hq'
    have h1 : b.rest ∈ (Bndp.allPatches g.D).flatMap fun rp => (T rp.1 rp.2).map Bndp.Prt.rest :=
      List.mem_flatMap.2 ⟨(r, p), Bndp.mem_allPatches.2 hh, List.mem_map.2 ⟨b, hb, rfl⟩⟩
    rw [hperm.mem_iff, List.mem_flatMap] at h1
    obtain ⟨⟨r', p'⟩, hrp, h1⟩ := h1
    obtain ⟨b', hb', e⟩ := List.mem_map.1 h1
    obtain ⟨q', hq2, e'⟩ := mem r' p' b' (List.mem_filter.1 hb').1
    have ek : q'.kind = (ofB b).kind := by
      show q'.kind = b.rest.2
      rw [← e, ← e']; rfl
    have := (hn r' p' (Bndp.mem_allPatches.1 hrp) q' hq2).1
    rw [ek] at this
    exact ⟨this.1, this.2, fun d => hin r p hh b hb d⟩
  have key := Bndp.exchange_weight g hD hok pB near hper T hT
    (fun rp b => ({S.box.back (globalPrt S.pic rp (bounce S rp (ofB b)))} : Multiset Push.Prt)) ?_ ?_ ?_
  · have e1 : (globalPrts S.pic fun r p => (((Bndp.exchange g pB r).getD fun _ => []) p).map ofB) =
        (Bndp.allPatches S.c.D).flatMap fun rp => ((T rp.1 rp.2).map ofB).map fun q => S.box.back (globalPrt S.pic rp (bounce S rp q)) := by
      unfold globalPrts
      refine List.flatMap_congr fun rp hrp => ?_
      have hh := Bndp.mem_allPatches.1 hrp
      refine (congrArg (List.map (globalPrt S.pic rp)) (eT rp.1 rp.2 hh)).trans ?_
      refine List.map_congr_left fun q hq => ?_
      obtain ⟨b, hb, rfl⟩ := List.mem_map.1 hq
      rw [bounce_inside hF hh fun d => (hin rp.1 rp.2 hh b hb d).2]
      exact (back_inside hF hh fun d => hin rp.1 rp.2 hh b hb d).symm
    have e2 : (globalPrts S.pic fun r p => (prts r p).map (bounce S (r, p))).map S.box.back =
        (Bndp.allPatches S.c.D).flatMap fun rp => (prts rp.1 rp.2).map fun q => S.box.back (globalPrt S.pic rp (bounce S rp q)) := by
      unfold globalPrts
      rw [List.map_flatMap]
      simp only [List.map_map]
      rfl
    rw [e1, e2]
    refine perm_of_sum (S := S.pic) (prts := fun r p => (T r p).map ofB) ?_
    simp only [List.map_map]
    refine Eq.trans key ?_
    simp only [hpB, List.map_map]
    rfl
  · intro r p hh b hb hl
    exfalso
    obtain ⟨d, hl⟩ := hl
    have e : (g.patch r p).prt_lo d = g.prt_lo d ∧ (g.patch r p).prt_hi d = g.prt_hi d := ⟨rfl, rfl⟩
    rcases hl with ⟨-, -, h | h⟩ | ⟨-, -, h | h⟩ <;> rcases bcs d with ⟨a, a'⟩ | ⟨a, a'⟩ <;>
      simp only [e.1, e.2, a, a'] at h <;> cases h
  · intro r p hh b hb b' hb'
    obtain ⟨h1, h2⟩ := Props.C17_reexpressed (g.patch r p) hok b (near r p hh b hb) b' (fun _ => 0) (Or.inr ⟨hb', rfl⟩)
    have hx' : ∀ d, 0 ≤ b'.x d ∧ b'.x d < S.c.ldims d * S.P.dx d := fate_in (g := g.patch r p) hok (near r p hh b hb) (dir := 0) (Or.inr hb')
    obtain ⟨q, hq', rfl⟩ := mem r p b hb
    have hb2 : bounce S (r, p) (ofB b') = ofB b' := bounce_inside hF hh fun d => (hx' d).2
    simp only [hb2]
    refine congrArg _ (back_fate hF hC hh hh (fun d => ((hn r p hh q hq').2 d).1) hx' (fun _ => 0) (congrArg Prod.fst h1)
      (congrArg Prod.snd h1) h2 (fun d => ⟨0, fun _ => rfl, by ring⟩))
  · intro r p hh b hb dir b' rp' hb' hnei
    obtain ⟨r', p'⟩ := rp'
    obtain ⟨h1, h2⟩ := Props.C17_reexpressed (g.patch r p) hok b (near r p hh b hb) b' dir (Or.inl hb')
    have hdir : dir = Bndp.newDir (g.patch r p) b.x := by
      rw [Bndp.process1_eq (g := g.patch r p) hok (near r p hh b hb)] at hb'
      unfold Bndp.fate at hb'
      split_ifs at hb'
      · exact absurd hb' (by simp)
      · exact absurd hb' (by simp)
      · simp only [Option.some.injEq, Bndp.Fate.send.injEq] at hb'
        exact hb'.1.symm
    have hd : IsDir dir := by rw [hdir]; exact Bndp.newDir_isDir _ _
    have hgrid := (Props.C25_idx3_owner g.D hD r p hh).1
    obtain ⟨hh', -⟩ := Props.C26_neighbour_symm g.D hD r p r' p' dir hh hd hnei
    have hst := (nei_eq_some hD hh hh' hd).1 hnei
    have hs := ((Props.C26_neighbour_position g.D _ dir hgrid hd).1 _ (neiIdx_eq_some.2 hst)).2
    have hx' : ∀ d, 0 ≤ b'.x d ∧ b'.x d < S.c.ldims d * S.P.dx d := fate_in (g := g.patch r p) hok (near r p hh b hb) (Or.inl hb')
    obtain ⟨q, hq', rfl⟩ := mem r p b hb
    have hb2 : bounce S (r', p') (ofB b') = ofB b' := bounce_inside hF hh' fun d => (hx' d).2
    simp only [hb2]
    refine congrArg _ (back_fate hF hC hh hh' (fun d => ((hn r p hh q hq').2 d).1) hx' dir (congrArg Prod.fst h1)
      (congrArg Prod.snd h1) h2 (fun d => ?_))
    have hsd := hs d
    unfold StepTo at hsd
    unfold Cfg.off Cfg.gdims
    change (S.c.D.idx3 r' p' d : ℤ) = S.c.D.idx3 r p d + dir d ∨ S.c.D.bc d = true ∧
      ((S.c.D.idx3 r' p' d : ℤ) = S.c.D.idx3 r p d + dir d + S.c.D.np d ∨
        (S.c.D.idx3 r' p' d : ℤ) = S.c.D.idx3 r p d + dir d - S.c.D.np d) at hsd
    rcases hsd with h | ⟨hb2, h | h⟩
    · exact ⟨0, fun _ => rfl, by rw [h]; ring⟩
    · exact ⟨1, fun h' => absurd hb2 (by rw [h']; decide), by rw [h]; ring⟩
    · exact ⟨-1, fun h' => absurd hb2 (by rw [h']; decide), by rw [h]; ring⟩

/-- where the particles exactly on an upper wall are put, seen from the whole box -/
theorem globalPrt_bounce {S : Setup} (hF : Fit S) (hC : Closed S) {r p : ℕ} (hh : S.c.D.Has r p) {q : Push.Prt}
    (hn : ∀ d, q.x d < (S.c.ldims d + 1) * S.P.dx d) :
    globalPrt S.pic (r, p) (bounce S (r, p) q) = S.box.nudge S.millionth (globalPrt S.pic (r, p) q) := by
  have key : ∀ d, (S.prt_hi d = .reflecting ∧ S.c.off r p d * S.P.dx d + q.x d = S.c.gdims d * S.P.dx d) ↔
      (S.box.per d = false ∧ (globalPrt S.pic (r, p) q).x d = S.box.len d) := by
    intro d
    have e : (S.c.off r p d * S.P.dx d + q.x d = S.c.gdims d * S.P.dx d) ↔ (globalPrt S.pic (r, p) q).x d = S.box.len d := by
      show _ ↔ q.x d + S.c.off r p d * S.P.dx d = S.c.gdims d * S.P.dx d
      rw [add_comm]
    rw [e]
    refine and_congr_left fun _ => ⟨fun hd => ?_, fun hb => (hC.walls hF hb).2.2.2⟩
    show S.c.D.bc d = false
    cases hi : S.cfg.inv d with
    | true => have := (hF.inv d hi).2.2.2.2.1.2; rw [hd] at this; cases this
    | false =>
      rcases (hF.act d hi).2.2 with ⟨-, ⟨-, a⟩, -⟩ | ⟨a, -⟩
      · rw [hd] at a; cases a
      · exact a
  refine prt_ext (funext fun d => ?_) (funext fun d => ?_) rfl rfl
  · by_cases h : S.prt_hi d = .reflecting ∧ S.c.off r p d * S.P.dx d + q.x d = S.c.gdims d * S.P.dx d
    · have e1 : (globalPrt S.pic (r, p) (bounce S (r, p) q)).x d =
          S.c.ldims d * S.P.dx d * (1 - 1 / 1000000) + S.c.off r p d * S.P.dx d := by
        show (if _ then _ else _) + _ = _
        rw [if_pos h]; rfl
      have e2 : (S.box.nudge S.millionth (globalPrt S.pic (r, p) q)).x d =
          S.c.gdims d * S.P.dx d - S.c.ldims d * S.P.dx d / 1000000 := by
        show (if _ then _ else _) = _
        rw [if_pos ((key d).1 h)]; rfl
      rw [e1, e2]
      have hL : (0 : ℝ) < S.c.ldims d := by exact_mod_cast hF.pos d
      have hL1 : (1 : ℝ) ≤ S.c.ldims d := by exact_mod_cast hF.pos d
      have hdx := hF.dx d
      have := hn d
      rcases (off_two hF hh d).2 with t | t
      · have t' : (S.c.off r p d : ℝ) + S.c.ldims d = S.c.gdims d := by exact_mod_cast t
        rw [← t']; ring
      · have t' : (S.c.off r p d : ℝ) + 2 * S.c.ldims d ≤ S.c.gdims d := by exact_mod_cast t
        exfalso
        nlinarith [h.2]
    · show (if _ then _ else _) + _ = (if _ then _ else _)
      rw [if_neg h, if_neg fun h' => h ((key d).2 h')]; rfl
  · show (if _ then _ else _) = (if _ then _ else _)
    by_cases h : S.prt_hi d = .reflecting ∧ S.c.off r p d * S.P.dx d + q.x d = S.c.gdims d * S.P.dx d
    · rw [if_pos h, if_pos ((key d).1 h)]; rfl
    · rw [if_neg h, if_neg fun h' => h ((key d).2 h')]; rfl

theorem exchange_box {S : Setup} (hF : Fit S) (hC : Closed S) {prts : ℕ → ℕ → List Push.Prt} (hn : Near1 S prts) :
    ∃ T, exchangePrts S.pic prts = some T ∧ PrtsOk S T ∧
      (globalPrts S.pic T).Perm ((globalPrts S.pic prts).map fun q => S.box.back (S.box.nudge S.millionth q)) := by
  obtain ⟨T, h1, h2, h3⟩ := exchange_bounce hF hC hn
  refine ⟨T, h1, h2, ?_⟩
  have : (globalPrts S.pic fun r p => (prts r p).map (bounce S (r, p))) =
      (globalPrts S.pic prts).map (S.box.nudge S.millionth) := by
    unfold globalPrts
    rw [List.map_flatMap]
    refine List.flatMap_congr fun rp hrp => ?_
    rw [List.map_map, List.map_map]
    refine List.map_congr_left fun q hq => ?_
    have hh := Bndp.mem_allPatches.1 hrp
    exact globalPrt_bounce hF hC hh fun d => ((hn _ _ hh q hq).2 d).1.2
  rw [this, List.map_map] at h3
  exact h3

/-! ### Steps and runs -/

theorem OnlySorts.keeps {i : StepIn} (h : OnlySorts i) : KeepsCharge i := fun r p l => (h r p l).map _

theorem current_perm (Q : SerialWall.Box) {l l' : List (Add ℝ)} (h : l.Perm l') : Q.current l = Q.current l' := by
  funext m x
  exact (h.map _).sum_eq

/-- One step of the decomposed run does what one step in the undivided box does, particles exactly on an upper wall being put a
millionth of a patch below it. -/
theorem step_boxN {S : Setup} (hF : Fit S) (hS : Scheme S) (hC : Closed S) (i : StepIn) (hi : OnlySorts i)
    {s : Pic.State} {G : Serial.State} (hp : PrtsOk S s.prts) (hR : Represents S s G) :
    ∃ s', step S i s = some s' ∧ PrtsOk S s'.prts ∧ Represents S s' (SerialWall.stepN S.box S.millionth G) := by
  set P0 : ℕ → ℕ → List Push.Prt := fun r p => i.pre r p (s.prts r p) with hP0
  have hp' : PrtsOk S P0 := pre_ok hi.keeps hp
  have hperm : (globalPrts S.pic P0).Perm G.prts := by
    refine List.Perm.trans ?_ hR.prts
    unfold globalPrts
    exact List.Perm.flatMap_left _ fun rp _ => (hi rp.1 rp.2 _).map _
  have hn := push_near hF s.flds hp'
  have hg := push_global' hF hS hp' hR
  obtain ⟨pp1, pp2⟩ := pushAll_perm S.cfg S.P (Serial.em G.E G.H) hperm
  obtain ⟨T, h1, h2, h3⟩ := exchange_box hF hC hn
  obtain ⟨τ, hs⟩ := fieldStepB_total (g := S.g) hF.valid (hF.supported i.rad1) (hF.supported i.rad2)
    (pushPrts S.pic P0 s.flds).2 s.flds
  have hT : (globalPrts S.pic T).Perm (SerialWall.stepN S.box S.millionth G).prts := by
    refine h3.trans ?_
    rw [hg]
    exact pp1.map _
  have hJ : currentB S.c S.g (S.bnd i.rad1) (pushPrts S.pic P0 s.flds).2 = S.box.current (SerialWall.push S.box G).2 := by
    funext m x
    rw [current_global hF hS hC hp' hR, current_perm _ pp2]
    rfl
  have hS' : SerialWall.stepN S.box S.millionth G = ⟨(SerialWall.push S.box G).1.map fun q => S.box.back (S.box.nudge S.millionth q),
      wallE S.c (ampere S.g.act S.g.dx S.g.dt G.E (faraday S.g.act S.g.dx (1/2 * S.g.dt) G.E G.H)
        (currentB S.c S.g (S.bnd i.rad1) (pushPrts S.pic P0 s.flds).2)),
      faraday S.g.act S.g.dx (1/2 * S.g.dt) (wallE S.c (ampere S.g.act S.g.dx S.g.dt G.E
        (faraday S.g.act S.g.dx (1/2 * S.g.dt) G.E G.H) (currentB S.c S.g (S.bnd i.rad1) (pushPrts S.pic P0 s.flds).2)))
        (faraday S.g.act S.g.dx (1/2 * S.g.dt) G.E G.H)⟩ := by
    rw [hJ]; rfl
  obtain ⟨⟨a1, a2, a3⟩, a4, a5, a6, a7⟩ := stepAll (hF.fitsB i.rad1) (hF.fitsB i.rad2) (hC.wallsB hF _) (hC.wallsB hF _) hs
    hR.perE hR.perH hR.E hR.H (fun r p hh d m hm hb ha n hn hd => hR.hiE r p hh d m hm ⟨hb, ha⟩ n hn hd)
    hR.topE (fun r p hh m hb ha n hn => hR.hiH r p hh m ⟨hb, ha⟩ n hn) _ _ _ rfl rfl rfl
  refine ⟨⟨T, τ⟩, ?_, h2, ?_⟩
  · unfold step
    simp only [Option.bind_eq_bind]
    rw [show exchangePrts S.pic (pushPrts S.pic (fun r p => i.pre r p (s.prts r p)) s.flds).1 = some T from h1, Option.bind_some,
      hs]
    rfl
  · rw [hS'] at hT ⊢
    exact ⟨hT, a1, a2, a4, a5, a3, fun r p hh d m hm hw n hn hd => a6 r p hh d m hm hw.1 hw.2 n hn hd,
      fun r p hh m hw n hn => a7 r p hh m hw.1 hw.2 n hn⟩

/-- the rule does not matter if there is no particle exactly on an upper wall -/
theorem stepN_eq (Q : SerialWall.Box) (ε : Fin 3 → ℝ) (G : Serial.State)
    (how : ∀ q ∈ (SerialWall.push Q G).1, ∀ d, Q.per d = false → q.x d ≠ Q.len d) :
    SerialWall.stepN Q ε G = SerialWall.step Q G := by
  unfold SerialWall.stepN
  have : ((SerialWall.push Q G).1.map fun q => Q.back (Q.nudge ε q)) = (SerialWall.step Q G).prts := by
    refine List.map_congr_left fun q hq => congrArg Q.back ?_
    exact prt_ext (funext fun d => if_neg fun ⟨a, b⟩ => how q hq d a b) (funext fun d => if_neg fun ⟨a, b⟩ => how q hq d a b) rfl rfl
  rw [this]

/-- One step of the decomposed run does what one step in the undivided box does. -/
theorem step_box {S : Setup} (hF : Fit S) (hS : Scheme S) (hC : Closed S) (i : StepIn) (hi : OnlySorts i)
    {s : Pic.State} {G : Serial.State} (hp : PrtsOk S s.prts) (hR : Represents S s G)
    (how : ∀ q ∈ (SerialWall.push S.box G).1, ∀ d, S.box.per d = false → q.x d ≠ S.box.len d) :
    ∃ s', step S i s = some s' ∧ PrtsOk S s'.prts ∧ Represents S s' (SerialWall.step S.box G) := by
  rw [← stepN_eq S.box S.millionth G how]
  exact step_boxN hF hS hC i hi hp hR

/-- Any number of steps of the decomposed run does what they do in the undivided box. -/
theorem run_box {S : Setup} (hF : Fit S) (hS : Scheme S) (hC : Closed S) (l : List StepIn) (hl : ∀ i ∈ l, OnlySorts i)
    {s : Pic.State} {G : Serial.State} (hp : PrtsOk S s.prts) (hR : Represents S s G) (how : SerialWall.OffWall S.box l.length G) :
    ∃ s', run S l s = some s' ∧ PrtsOk S s'.prts ∧ Represents S s' (SerialWall.run S.box l.length G) := by
  induction l generalizing s G with
  | nil => exact ⟨s, rfl, hp, hR⟩
  | cons i l ih =>
    obtain ⟨s1, e1, p1, q1⟩ := step_box hF hS hC i (hl i List.mem_cons_self) hp hR how.1
    obtain ⟨s', e2, r⟩ := ih (fun i hi => hl i (List.mem_cons_of_mem _ hi)) p1 q1 how.2
    exact ⟨s', by simp only [run, Option.bind_eq_bind, e1, Option.bind_some]; exact e2, r⟩

/-- the same with the rule for particles exactly on an upper wall -/
theorem run_boxN {S : Setup} (hF : Fit S) (hS : Scheme S) (hC : Closed S) (l : List StepIn) (hl : ∀ i ∈ l, OnlySorts i)
    {s : Pic.State} {G : Serial.State} (hp : PrtsOk S s.prts) (hR : Represents S s G) :
    ∃ s', run S l s = some s' ∧ PrtsOk S s'.prts ∧ Represents S s' (SerialWall.runN S.box S.millionth l.length G) := by
  induction l generalizing s G with
  | nil => exact ⟨s, rfl, hp, hR⟩
  | cons i l ih =>
    obtain ⟨s1, e1, p1, q1⟩ := step_boxN hF hS hC i (hl i List.mem_cons_self) hp hR
    obtain ⟨s', e2, r⟩ := ih (fun i hi => hl i (List.mem_cons_of_mem _ hi)) p1 q1
    exact ⟨s', by simp only [run, Option.bind_eq_bind, e1, Option.bind_some]; exact e2, r⟩

end

end Psc.WallPic
