import Verif.Lemmas.Translate
import Verif.Lemmas.PicStep
import Verif.Spec.Serial

/-!
# Decomposed runs and runs on the undivided grid
-/

namespace Psc.Pic

open Domain Ddc FieldStep Spec Yee Translate

noncomputable section

/-- What is needed of a push configuration and of the charge deposition of the correctors. -/
structure SoundG (S : Setup) : Prop where
  cov : Covariant S.cfg S.P
  stor : ∀ ps, Props.InPatch S.c.ldims S.P ps → Props.PushInStorage S.cfg S.P S.c.ldims S.c.ibn ps
  mstor : ∀ ps, Props.InPatch S.c.ldims S.P ps → WritesStorage S.c.ldims S.c.ibn (Push.rho S.depM S.P ps)
  mcov : ∀ (x : R3 ℝ) (v : ℝ) (s : I3), (∀ d, S.cfg.inv d = true → s d = 0) → ∀ i j k,
    fieldOf (S.depM (fun d => x d + s d) v) 0 i j k = fieldOf (S.depM x v) 0 (i - s 0) (j - s 1) (k - s 2)

theorem pushAll_eq (c : Push.Config) (P : Push.Params) (EM : Interp.Fld ℝ) (ps : List Push.Prt) :
    Push.pushAll c P EM ps =
      (ps.map fun q => (Push.pushOne c P EM q).1, ps.flatMap fun q => (Push.pushOne c P EM q).2) := by
  induction ps with
  | nil => rfl
  | cons q ps ih => simp only [Push.pushAll, ih, List.map_cons, List.flatMap_cons]

theorem Fit.off_inv {S : Setup} {w : ℤ} (hF : Fit S w) {r p : ℕ} (h : S.c.D.Has r p) (d : Fin 3)
    (hd : S.cfg.inv d = true) : S.c.off r p d = 0 := by
  have := (Props.C25_idx3_owner S.c.D hF.valid.valid r p h).1 d
  have e := (hF.inv d hd).2.1
  unfold Cfg.off
  rw [show S.c.D.idx3 r p d = 0 by omega]
  simp

/-- moving a particle to the frame of the whole domain commutes with pushing it -/
theorem pushOne_global {S : Setup} {w : ℤ} (hF : Fit S w) (hS : SoundG S) {r p : ℕ} (h : S.c.D.Has r p)
    (EM : Interp.Fld ℝ) (q : Push.Prt) :
    (Push.pushOne S.cfg S.P EM (globalPrt S (r, p) q)).1 =
      globalPrt S (r, p) (Push.pushOne S.cfg S.P (shiftF (S.c.off r p) EM) q).1 ∧
    ∀ m g, W (Push.pushOne S.cfg S.P EM (globalPrt S (r, p) q)).2 m g =
      W (Push.pushOne S.cfg S.P (shiftF (S.c.off r p) EM) q).2 m (fun n => g (fun d => n d + S.c.off r p d)) := by
  have ex : ∀ y : R3 ℝ, (fun d => (y d + S.c.off r p d * S.P.dx d) * (1 / S.P.dx d)) =
      fun d => y d * (1 / S.P.dx d) + S.c.off r p d := by
    intro y; funext d
    have := (hF.dx d).ne'
    field_simp
  have hi := hS.cov.interp (fun d => q.x d * (1 / S.P.dx d)) (S.c.off r p) EM (hF.off_inv h)
  have e1 : (Push.pushOne S.cfg S.P EM (globalPrt S (r, p) q)).1 =
      globalPrt S (r, p) (Push.pushOne S.cfg S.P (shiftF (S.c.off r p) EM) q).1 := by
    unfold Push.pushOne globalPrt
    simp only [ex, hi]
    congr 1
    funext d
    unfold Push.push_x
    split_ifs <;> ring
  refine ⟨e1, fun m g => ?_⟩
  rw [← W_moveBy]
  refine W_congr (fun i j k => ?_) g
  set v := Push.calc_v (Push.pushOne S.cfg S.P (shiftF (S.c.off r p) EM) q).1.u with hv
  have e2 : (Push.pushOne S.cfg S.P EM (globalPrt S (r, p) q)).2 =
      S.cfg.current S.P q.qw v (fun d => q.x d * (1 / S.P.dx d) + S.c.off r p d)
        (fun d => (Push.pushOne S.cfg S.P (shiftF (S.c.off r p) EM) q).1.x d * (1 / S.P.dx d) + S.c.off r p d) := by
    have : (Push.pushOne S.cfg S.P EM (globalPrt S (r, p) q)).2 = S.cfg.current S.P q.qw
        (Push.calc_v (Push.pushOne S.cfg S.P EM (globalPrt S (r, p) q)).1.u)
        (fun d => (globalPrt S (r, p) q).x d * (1 / S.P.dx d))
        (fun d => (Push.pushOne S.cfg S.P EM (globalPrt S (r, p) q)).1.x d * (1 / S.P.dx d)) := rfl
    rw [this, e1]
    simp only [globalPrt, ex, hv]
  rw [e2, hS.cov.current _ _ _ _ _ (fun d => ?_) (hF.off_inv h)]
  · rfl
  · have hx : (Push.pushOne S.cfg S.P (shiftF (S.c.off r p) EM) q).1.x d =
        if S.cfg.inv d then q.x d else q.x d + 1 * S.P.dt * v d := rfl
    rw [hx, ← sub_mul]
    have hd := hF.dx d
    split_ifs with hi
    · simp
    · have hl := Push.calc_v_lt (Push.pushOne S.cfg S.P (shiftF (S.c.off r p) EM) q).1.u d
      rw [← hv] at hl
      have hdt := hF.dt
      have hc := (hF.act d (by simpa using hi)).2.2.2.2
      rw [add_sub_cancel_left, abs_mul, abs_mul, one_mul, abs_of_pos hdt, abs_of_pos (show (0 : ℝ) < 1 / S.P.dx d by positivity),
        mul_one_div, div_lt_one hd]
      nlinarith [abs_nonneg (v d)]

/-- fields of a patch and global fields -/
theorem same_storage {S : Setup} {flds : Glob ℝ} {E H : VF ℝ} (hE : ∀ d : Fin 3, Holds S.c flds (EX + d) (E d))
    (hH : ∀ d : Fin 3, Holds S.c flds (HX + d) (H d)) {r p : ℕ} (h : S.c.D.Has r p) :
    SameStorage S.c.ldims S.c.ibn (emOf (flds r p)) (shiftF (S.c.off r p) (Serial.em E H)) := by
  intro m i j k ⟨h0, h1, h2⟩
  have hs : Stored S.c ![i, j, k] := by
    intro d; fin_cases d
    · exact h0
    · exact h1
    · exact h2
  have e : (fun d => S.c.off r p d + ![i, j, k] d) = ![i + S.c.off r p 0, j + S.c.off r p 1, k + S.c.off r p 2] := by
    funext d; fin_cases d <;> exact add_comm _ _
  have e1 := fun d => hE d r p h _ hs
  have e2 := fun d => hH d r p h _ hs
  rw [e] at e1 e2
  fin_cases m
  · exact e1 0
  · exact e1 1
  · exact e1 2
  · exact e2 0
  · exact e2 1
  · exact e2 2

/-- indicator of the global cell `x` -/
def indG (c : Cfg) (x n : I3) : ℝ := if wrap c n = wrap c x then 1 else 0

theorem indG_off (c : Cfg) (rp : ℕ × ℕ) (x : I3) : (fun n : I3 => indG c x fun d => n d + c.off rp.1 rp.2 d) = ind c rp x := by
  funext n
  unfold indG ind
  have : wrap c (fun d => n d + c.off rp.1 rp.2 d) = phys c rp.1 rp.2 n := by
    funext d; unfold wrap phys; simp only [add_comm (n d)]
  rw [this]

theorem sumAt_eq (S : Setup) (evs : List (Add ℝ)) (m : Fin 3) (x : I3) :
    S.problem.sumAt evs m x = W evs m (indG S.c x) := by
  unfold Serial.Problem.sumAt W indG
  refine congrArg List.sum (List.map_congr_left fun e _ => ?_)
  have hw : ∀ y, S.problem.wrapI y = wrap S.c y := fun y => rfl
  simp only [hw, at_]
  by_cases h1 : e.m = m <;> by_cases h2 : wrap S.c ![e.i, e.j, e.k] = wrap S.c x <;> simp [h1, h2]

theorem sum_flatMap {α R : Type} [AddCommMonoid R] (f : α → R) (D : Decomp) (g : ℕ × ℕ → List α) :
    (((Bndp.allPatches D).flatMap g).map f).sum = ((Bndp.allPatches D).map fun rp => ((g rp).map f).sum).sum :=
  Bndp.sum_map_flatMap f _ g

/-- The current of all patches is the current of all particles on the undivided grid. -/
theorem total_current {S : Setup} {w : ℤ} (hF : Fit S w) (hS : SoundG S) {prts : ℕ → ℕ → List Push.Prt}
    (hp : PrtsInside S prts) {flds : Glob ℝ} {E H : VF ℝ} (hE : ∀ d : Fin 3, Holds S.c flds (EX + d) (E d))
    (hH : ∀ d : Fin 3, Holds S.c flds (HX + d) (H d)) (d : Fin 3) (x : I3) :
    total S.c (pushPrts S prts flds).2 (JXI + d) x =
      S.problem.sumAt (Push.pushAll S.cfg S.P (Serial.em E H) (globalPrts S prts)).2 d x := by
  rw [show JXI + (d : ℕ) = d by simp [JXI]]
  rw [show (pushPrts S prts flds).2 = fun r p => depOf (Push.pushAll S.cfg S.P (emOf (flds r p)) (prts r p)).2 from rfl,
    total_depOf (c := S.c) (L := fun r p => (Push.pushAll S.cfg S.P (emOf (flds r p)) (prts r p)).2)
      (fun r p hh => (hS.stor _ (hp r p hh)).1 _), sum_patches, sumAt_eq, pushAll_eq, W_flatMap]
  unfold globalPrts
  rw [sum_flatMap]
  refine congrArg List.sum (List.map_congr_left fun rp hrp => ?_)
  obtain ⟨r, p⟩ := rp
  have hh := Bndp.mem_allPatches.1 hrp
  simp only
  rw [(hS.stor _ (hp r p hh)).2 _ _ (same_storage hE hH hh), pushAll_eq, W_flatMap, List.map_map]
  refine congrArg List.sum (List.map_congr_left fun q _ => ?_)
  simp only [Function.comp]
  rw [(pushOne_global hF hS hh _ q).2, indG_off S.c (r, p)]

/-- The particles of all patches after the push are the particles pushed on the undivided grid. -/
theorem push_global {S : Setup} {w : ℤ} (hF : Fit S w) (hS : SoundG S) {prts : ℕ → ℕ → List Push.Prt}
    (hp : PrtsInside S prts) {flds : Glob ℝ} {E H : VF ℝ} (hE : ∀ d : Fin 3, Holds S.c flds (EX + d) (E d))
    (hH : ∀ d : Fin 3, Holds S.c flds (HX + d) (H d)) :
    globalPrts S (pushPrts S prts flds).1 = (Push.pushAll S.cfg S.P (Serial.em E H) (globalPrts S prts)).1 := by
  rw [pushAll_eq]
  unfold globalPrts
  simp only [List.map_flatMap]
  refine List.flatMap_congr fun rp hrp => ?_
  obtain ⟨r, p⟩ := rp
  have hh := Bndp.mem_allPatches.1 hrp
  simp only [pushPrts]
  rw [(hS.stor _ (hp r p hh)).2 _ _ (same_storage hE hH hh), pushAll_eq, List.map_map, List.map_map]
  refine List.map_congr_left fun q _ => ?_
  simp only [Function.comp]
  rw [(pushOne_global hF hS hh _ q).1]

theorem sum_singleton {α : Type} (l : List α) : (l.map fun a => ({a} : Multiset α)).sum = (l : Multiset α) := by
  induction l with
  | nil => rfl
  | cons a l ih => rw [List.map_cons, List.sum_cons, ih]; rfl

theorem prt_ext {a b : Push.Prt} (h1 : a.x = b.x) (h2 : a.u = b.u) (h3 : a.qw = b.qw) (h4 : a.kind = b.kind) : a = b := by
  cases a; cases b; simp_all

theorem wrapX_unique {x y L : ℝ} (hL : 0 < L) (k : ℤ) (h : y = x + k * L) :
    y - ⌊y / L⌋ * L = x - ⌊x / L⌋ * L := by
  have : y / L = x / L + k := by rw [h]; field_simp
  rw [this, Int.floor_add_intCast, h]
  push_cast
  ring

theorem gdims_pos {S : Setup} {w : ℤ} (hF : Fit S w) {r p : ℕ} (h : S.c.D.Has r p) (d : Fin 3) :
    (0 : ℝ) < S.c.gdims d * S.P.dx d := by
  have h1 := (Props.C25_idx3_owner S.c.D hF.valid.valid r p h).1 d
  have h2 : (0 : ℤ) < S.c.gdims d := by
    unfold Cfg.gdims
    exact mul_pos (by exact_mod_cast (by omega : 0 < S.c.D.np d)) (hF.pos d)
  exact mul_pos (by exact_mod_cast h2) (hF.dx d)

/-- a particle in its patch is in the domain -/
theorem wrapP_inside {S : Setup} {w : ℤ} (hF : Fit S w) {r p : ℕ} (h : S.c.D.Has r p) {q : Push.Prt}
    (hq : ∀ d, 0 ≤ q.x d ∧ q.x d < S.c.ldims d * S.P.dx d) :
    S.problem.wrapP (globalPrt S (r, p) q) = globalPrt S (r, p) q := by
  refine prt_ext (funext fun d => ?_) rfl rfl rfl
  show S.problem.wrapX (globalPrt S (r, p) q).x d = _
  unfold Serial.Problem.wrapX
  split_ifs
  · have hL := gdims_pos hF h d
    have h1 := (Props.C25_idx3_owner S.c.D hF.valid.valid r p h).1 d
    have hf : ⌊(globalPrt S (r, p) q).x d / (S.problem.gdims d * S.problem.P.dx d)⌋ = 0 := by
      rw [Int.floor_eq_zero_iff]
      show 0 ≤ (q.x d + S.c.off r p d * S.P.dx d) / (S.c.gdims d * S.P.dx d) ∧
        (q.x d + S.c.off r p d * S.P.dx d) / (S.c.gdims d * S.P.dx d) < 1
      obtain ⟨a, b⟩ := hq d
      have hdx := hF.dx d
      have ho : (0 : ℝ) ≤ S.c.off r p d := by
        unfold Cfg.off
        have : (0 : ℤ) ≤ (S.c.D.idx3 r p d : ℤ) * S.c.ldims d := mul_nonneg (by omega) (hF.pos d).le
        exact_mod_cast this
      have hu : (S.c.off r p d : ℝ) + S.c.ldims d ≤ S.c.gdims d := by
        have : S.c.off r p d + S.c.ldims d ≤ S.c.gdims d := by
          unfold Cfg.off Cfg.gdims
          have : ((S.c.D.idx3 r p d : ℤ) + 1) ≤ S.c.D.np d := by omega
          have := mul_le_mul_of_nonneg_right this (hF.pos d).le
          linarith
        exact_mod_cast this
      constructor
      · positivity
      · rw [div_lt_one hL]
        nlinarith
    rw [hf]
    simp
  · rfl

theorem perm_of_sum {S : Setup} {α : Type} {prts prts' : ℕ → ℕ → List Push.Prt} {f g : ℕ × ℕ → Push.Prt → α}
    (h : ((Bndp.allPatches S.c.D).map fun rp => ((prts rp.1 rp.2).map fun q => ({f rp q} : Multiset α)).sum).sum =
      ((Bndp.allPatches S.c.D).map fun rp => ((prts' rp.1 rp.2).map fun q => ({g rp q} : Multiset α)).sum).sum) :
    ((Bndp.allPatches S.c.D).flatMap fun rp => (prts rp.1 rp.2).map (f rp)).Perm
      ((Bndp.allPatches S.c.D).flatMap fun rp => (prts' rp.1 rp.2).map (g rp)) := by
  have key : ∀ (P : ℕ → ℕ → List Push.Prt) (f : ℕ × ℕ → Push.Prt → α),
      ((Bndp.allPatches S.c.D).map fun rp => ((P rp.1 rp.2).map fun q => ({f rp q} : Multiset α)).sum).sum =
      (((Bndp.allPatches S.c.D).flatMap fun rp => (P rp.1 rp.2).map (f rp) : List α) : Multiset α) := by
    intro P f
    rw [← sum_singleton, sum_flatMap]
    simp only [List.map_map]
    rfl
  rw [key, key] at h
  exact Multiset.coe_eq_coe.1 h

/-- The exchange of particles is the periodic wrap of the domain. -/
theorem exchange_global {S : Setup} {w : ℤ} (hF : Fit S w) {prts : ℕ → ℕ → List Push.Prt} (hn : PrtsNear S prts) :
    ∃ T, exchangePrts S prts = some T ∧ PrtsInside S T ∧
      (globalPrts S T).Perm ((globalPrts S prts).map S.problem.wrapP) := by
  by_cases hne : ∃ r p, S.c.D.Has r p
  · obtain ⟨r0, p0, h0⟩ := hne
    obtain ⟨T, h1, h2, -, h3⟩ := exchange_core hF hn (R := Multiset Push.Prt)
      (fun rp q => {S.problem.wrapP (globalPrt S rp q)}) (by
        intro rp rp' q q' s hs hx hu hqw hk ho
        refine congrArg _ (prt_ext (funext fun d => ?_) hu hqw hk)
        show S.problem.wrapX (globalPrt S rp' q').x d = S.problem.wrapX (globalPrt S rp q).x d
        have e := congrFun (ho fun _ => 0) d
        unfold phys at e
        unfold Serial.Problem.wrapX
        show (if S.c.D.bc d = true then _ else _) = if S.c.D.bc d = true then _ else _
        have hx' := hx d
        split_ifs with hb
        · rw [if_pos hb, if_pos hb] at e
          obtain ⟨k, hk⟩ := Int.dvd_of_emod_eq_zero (Int.emod_eq_emod_iff_emod_sub_eq_zero.1 e)
          refine wrapX_unique (gdims_pos hF h0 d) k ?_
          have hk' : (S.c.off rp'.1 rp'.2 d : ℝ) = S.c.off rp.1 rp.2 d + s d + S.c.gdims d * k := by
            exact_mod_cast (by linarith : S.c.off rp'.1 rp'.2 d = S.c.off rp.1 rp.2 d + s d + S.c.gdims d * k)
          show q'.x d + S.c.off rp'.1 rp'.2 d * S.P.dx d = q.x d + S.c.off rp.1 rp.2 d * S.P.dx d + k * (S.c.gdims d * S.P.dx d)
          rw [hk', ← hx']
          ring
        · rw [if_neg hb, if_neg hb] at e
          simp only [globalPrt]
          have : (S.c.off rp'.1 rp'.2 d : ℝ) = S.c.off rp.1 rp.2 d + s d := by exact_mod_cast (by linarith : S.c.off rp'.1 rp'.2 d = _)
          rw [this, ← hx']; ring)
    refine ⟨T, h1, h2, ?_⟩
    have h4 := perm_of_sum (S := S) (f := fun rp q => S.problem.wrapP (globalPrt S rp q))
      (g := fun rp q => S.problem.wrapP (globalPrt S rp q)) h3
    unfold globalPrts
    rw [List.map_flatMap]
    simp only [List.map_map]
    refine List.Perm.trans (List.Perm.of_eq (List.flatMap_congr fun rp hrp => List.map_congr_left fun q hq => ?_)) h4
    exact (wrapP_inside hF (Bndp.mem_allPatches.1 hrp) (h2 rp.1 rp.2 (Bndp.mem_allPatches.1 hrp) q hq)).symm
  · obtain ⟨T, h1, h2, -⟩ := exchange_core hF hn (R := ℕ) (fun _ _ => 0) (fun _ _ _ _ _ _ _ _ _ _ _ => rfl)
    have he : Bndp.allPatches S.c.D = [] := by
      rw [List.eq_nil_iff_forall_not_mem]
      rintro ⟨r, p⟩ h
      exact hne ⟨r, p, Bndp.mem_allPatches.1 h⟩
    refine ⟨T, h1, h2, ?_⟩
    unfold globalPrts
    rw [he]
    exact List.Perm.refl _

/-- The charge density of all patches, as the correctors compute it, is that of all particles on the undivided grid. -/
theorem rhoM_global {S : Setup} {w : ℤ} (hF : Fit S w) (hw : 2 ≤ w) (hS : SoundG S) {prts : ℕ → ℕ → List Push.Prt}
    (hp : PrtsInside S prts) :
    ∃ rho, itemRhoM S prts = some rho ∧
      Owns S.c rho 0 (S.problem.sumAt (Push.rho S.depM S.P (globalPrts S prts)) 0) := by
  obtain ⟨τ, h1, h2, -⟩ := addAll_spec (hF.fits hw) 0 1 (by omega) (fun r p => depOf (Push.rho S.depM S.P (prts r p)))
  refine ⟨τ, h1, ?_⟩
  have := h2 0 (le_refl _) (by omega)
  have e : total S.c (fun r p => depOf (Push.rho S.depM S.P (prts r p))) 0 =
      S.problem.sumAt (Push.rho S.depM S.P (globalPrts S prts)) 0 := by
    funext x
    refine (total_depOf (c := S.c) (L := fun r p => Push.rho S.depM S.P (prts r p))
      (fun r p hh => hS.mstor _ (hp r p hh)) 0 x).trans ?_
    rw [sum_patches, sumAt_eq]
    unfold Push.rho
    rw [W_flatMap]
    unfold globalPrts
    rw [sum_flatMap]
    refine congrArg List.sum (List.map_congr_left fun rp hrp => ?_)
    obtain ⟨r, p⟩ := rp
    have hh := Bndp.mem_allPatches.1 hrp
    rw [W_flatMap, List.map_map]
    refine congrArg List.sum (List.map_congr_left fun q _ => ?_)
    simp only [Function.comp]
    rw [← indG_off S.c (r, p), ← W_moveBy]
    refine W_congr (fun i j k => ?_) _
    rw [fieldOf_moveBy]
    unfold Deposit.code
    rw [← hS.mcov _ _ (S.c.off r p) (hF.off_inv hh)]
    refine congrFun (congrFun (congrFun (congrFun (congrArg _ ?_) _) _) _) _
    have e1 : Push.charge S.P (globalPrt S (r, p) q) = Push.charge S.P q := rfl
    rw [e1]
    refine congrFun (congrArg _ (funext fun d => ?_)) _
    have := (hF.dx d).ne'
    simp only [globalPrt]
    field_simp
  rwa [e] at this

theorem sumAt_perm (Q : Serial.Problem) {l l' : List (Add ℝ)} (h : l.Perm l') (m : Fin 3) : Q.sumAt l m = Q.sumAt l' m := by
  funext x
  exact (h.map _).sum_eq

theorem pushAll_perm (c : Push.Config) (P : Push.Params) (EM : Interp.Fld ℝ) {l l' : List Push.Prt} (h : l.Perm l') :
    (Push.pushAll c P EM l).1.Perm (Push.pushAll c P EM l').1 ∧ (Push.pushAll c P EM l).2.Perm (Push.pushAll c P EM l').2 := by
  rw [pushAll_eq, pushAll_eq]
  exact ⟨h.map _, h.flatMap_right _⟩

theorem act_problem (S : Setup) : S.problem.act = S.g.act := rfl

theorem strength_eq (S : Setup) (hdt : S.P.dt ≠ 0) (f : ℝ) : S.problem.strength f = diffusion S.g f := by
  unfold Serial.Problem.strength diffusion
  have e : (List.finRange 3).foldl (fun s d => if S.g.inv d then s else s + (1 / S.g.dx d) * (1 / S.g.dx d)) 0 =
      ∑ d : Fin 3, if S.cfg.inv d then (0 : ℝ) else 1 / S.P.dx d ^ 2 := by
    rw [Fin.sum_univ_three, show List.finRange 3 = [0, 1, 2] from rfl]
    simp only [List.foldl_cons, List.foldl_nil]
    have h1 : ∀ d, 1 / S.g.dx d * (1 / S.g.dx d) = 1 / S.P.dx d ^ 2 := fun d => by
      show 1 / S.P.dx d * (1 / S.P.dx d) = _
      rw [sq, one_div_mul_one_div]
    have h2 : ∀ d, S.g.inv d = S.cfg.inv d := fun d => rfl
    simp only [h1, h2]
    split_ifs <;> ring
  rw [e]
  show f / S.P.dt / _ = 1 / 2 / (1/2 * S.P.dt) / _ * f
  rw [show (1 : ℝ) / 2 / (1/2 * S.P.dt) = 1 / S.P.dt by field_simp]
  show f / S.P.dt / (∑ d : Fin 3, if S.cfg.inv d then (0 : ℝ) else 1 / S.P.dx d ^ 2) = _
  ring

theorem marderE_iter (S : Setup) (k : ℝ) (ρ : I3 → ℝ) (n : ℕ) (E : VF ℝ) :
    (S.problem.gauss1 k ρ)^[n] E = marderE S.g k ρ n E := by
  induction n generalizing E with
  | zero => rfl
  | succ n ih => rw [Function.iterate_succ, Function.comp, ih]; rfl

theorem gauss_eq (S : Setup) (hdt : S.P.dt ≠ 0) (ρ : I3 → ℝ) (l : List CorrIn) (f : CorrIn → Corrector ℝ)
    (hf : ∀ m, (f m).diffusion_ = m.diffusion_ ∧ (f m).loop = m.loop) (E : VF ℝ) :
    S.problem.gauss ρ (l.map fun m => (m.diffusion_, m.loop)) E = correctorsE S.g ρ (l.map f) E := by
  induction l generalizing E with
  | nil => rfl
  | cons m l ih =>
    simp only [List.map_cons, correctorsE, (hf m).1, (hf m).2]
    rw [← ih]
    unfold Serial.Problem.gauss
    rw [List.foldl_cons, marderE_iter, strength_eq S hdt]

theorem Fit.sums_periodic (S : Setup) (l : List (Add ℝ)) (m : Fin 3) : Periodic S.c (S.problem.sumAt l m) := by
  intro x y h
  rw [sumAt_eq, sumAt_eq]
  unfold indG
  rw [h]

/-- One step of the decomposed run does what one step on the undivided grid does. -/
theorem step_serial {S : Setup} {w : ℤ} (hF : Fit S w) (hw : 2 ≤ w) (hS : SoundG S) (i : StepIn) (hi : OnlySorts i)
    {s : State} {G : Serial.State} (hp : PrtsInside S s.prts) (hR : Represents S s G) :
    ∃ s', step S i s = some s' ∧ PrtsInside S s'.prts ∧ Represents S s' (Serial.step S.problem (corrs i) G) := by
  set P0 : ℕ → ℕ → List Push.Prt := fun r p => i.pre r p (s.prts r p) with hP0
  have hp' : PrtsInside S P0 := fun r p hh q hq d => hp r p hh q ((hi r p _).mem_iff.1 hq) d
  have hperm : (globalPrts S P0).Perm G.prts := by
    refine List.Perm.trans ?_ hR.prts
    unfold globalPrts
    exact List.Perm.flatMap_left _ fun rp _ => (hi rp.1 rp.2 _).map _
  have hn := (push_near' hF s.flds hp')
  obtain ⟨T, h1, h2, h3⟩ := exchange_global hF hn
  obtain ⟨rho, r1, r2⟩ := rhoM_global hF hw hS h2
  have hg := push_global hF hS hp' hR.E hR.H
  obtain ⟨pp1, pp2⟩ := pushAll_perm S.cfg S.P (Serial.em G.E G.H) hperm
  have hT : (globalPrts S T).Perm (Serial.step S.problem (corrs i) G).prts := by
    refine h3.trans ?_
    rw [hg]
    exact pp1.map _
  have hJ : (fun d : Fin 3 => total S.c (pushPrts S P0 s.flds).2 (JXI + d)) =
      S.problem.sumAt (Push.pushAll S.cfg S.P (Serial.em G.E G.H) G.prts).2 := by
    funext d x
    rw [total_current hF hS hp' hR.E hR.H, sumAt_perm _ pp2]
  have hrho : S.problem.sumAt (Push.rho S.depM S.P (globalPrts S T)) 0 =
      S.problem.sumAt (Push.rho S.depM S.P (Serial.step S.problem (corrs i) G).prts) 0 :=
    sumAt_perm _ (hT.flatMap_right _) 0
  rw [hrho] at r2
  set f : CorrIn → Corrector ℝ := fun m =>
    { walls := ⟨fun _ _ _ => false, fun _ _ _ => false⟩, diffusion_ := m.diffusion_, loop := m.loop, rho := rho, junk := m.junk }
    with hf
  obtain ⟨τ, f1, f2, f3, f4, f5, -⟩ := fieldStep_spec' (hF.fits hw) (pushPrts S P0 s.flds).2
    (Fit.sums_periodic S _ 0) (i.ms.map f)
    (by
      intro m hm
      obtain ⟨m', hm', rfl⟩ := List.mem_map.1 hm
      exact ⟨r2, fun _ _ _ => ⟨rfl, rfl⟩⟩) rfl rfl rfl rfl hR.perE hR.perH hR.E hR.H
  refine ⟨⟨T, τ⟩, ?_, h2, ?_⟩
  · unfold step
    simp only [Option.bind_eq_bind]
    rw [show exchangePrts S (pushPrts S (fun r p => i.pre r p (s.prts r p)) s.flds).1 = some T from h1, Option.bind_some, r1,
      Option.bind_some, f1]
    rfl
  · rw [hJ, ← gauss_eq S hF.dt.ne' _ i.ms f (fun _ => ⟨rfl, rfl⟩)] at f2 f3 f4 f5
    exact ⟨hT, f4, f5, f2, f3⟩

theorem run_serial {S : Setup} {w : ℤ} (hF : Fit S w) (hw : 2 ≤ w) (hS : SoundG S) (l : List StepIn)
    (hl : ∀ i ∈ l, OnlySorts i) {s : State} {G : Serial.State} (hp : PrtsInside S s.prts) (hR : Represents S s G) :
    ∃ s', run S l s = some s' ∧ PrtsInside S s'.prts ∧ Represents S s' (Serial.run S.problem (l.map corrs) G) := by
  induction l generalizing s G with
  | nil => exact ⟨s, rfl, hp, hR⟩
  | cons i l ih =>
    obtain ⟨s1, e1, p1, q1⟩ := step_serial hF hw hS i (hl i List.mem_cons_self) hp hR
    obtain ⟨s', e2, r⟩ := ih (fun i hi => hl i (List.mem_cons_of_mem _ hi)) p1 q1
    exact ⟨s', by simp only [run, Option.bind_eq_bind, e1, Option.bind_some]; exact e2, r⟩

/-! ### The schemes -/

theorem nc1_xyz_cov (x : R3 ℝ) (v : ℝ) (s : I3) (i j k : ℤ) :
    fieldOf (Deposit.nc1_xyz (fun d => x d + s d) v) 0 i j k = fieldOf (Deposit.nc1_xyz x v) 0 (i - s 0) (j - s 1) (k - s 2) := by
  rw [Props.nc1_xyz_eq_tent, Props.nc1_xyz_eq_tent]
  exact tentRho_cov _ v x s (by intro d hd; exfalso; revert hd; fin_cases d <;> decide) i j k

theorem nc1_yz_cov (x : R3 ℝ) (v : ℝ) (s : I3) (h0 : s 0 = 0) (i j k : ℤ) :
    fieldOf (Deposit.nc1_yz (fun d => x d + s d) v) 0 i j k = fieldOf (Deposit.nc1_yz x v) 0 (i - s 0) (j - s 1) (k - s 2) := by
  rw [Props.nc1_yz_eq_tent, Props.nc1_yz_eq_tent]
  refine tentRho_cov _ v x s (fun d hd => ?_) i j k
  fin_cases d
  · exact h0
  · exact absurd hd (by decide)
  · exact absurd hd (by decide)

theorem soundG_xyz {S : Setup} {w : ℤ} (hF : Fit S w) (hw : 1 ≤ w) (hi : S.cfg.inv = ![false, false, false])
    (hM : S.depM = Deposit.nc1_xyz) (cov : Covariant S.cfg S.P)
    (stor : Props.GoodStep Spec.xyz S.P → Room Spec.xyz w S.c.ldims S.c.ibn →
      ∀ ps, Props.InPatch S.c.ldims S.P ps → Props.PushInStorage S.cfg S.P S.c.ldims S.c.ibn ps) : SoundG S := by
  have e : S.g.act = Spec.xyz := act_xyz hi
  have hg := hF.good; have hr := hF.room (le_refl w); have hr1 := hF.room (w' := 1) hw
  rw [e] at hg hr hr1
  refine ⟨cov, stor hg hr, fun ps hp => ?_, fun x v s _ i j k => ?_⟩
  · rw [hM]; exact (Props.C56_rho S.P hF.dx _ _ ps hp).1 hr1
  · rw [hM]; exact nc1_xyz_cov x v s i j k

theorem soundG_yz {S : Setup} {w : ℤ} (hF : Fit S w) (hw : 1 ≤ w) (hi : S.cfg.inv = ![true, false, false])
    (hM : S.depM = Deposit.nc1_yz) (cov : Covariant S.cfg S.P)
    (stor : Props.GoodStep Spec.yz S.P → Room Spec.yz w S.c.ldims S.c.ibn →
      ∀ ps, Props.InPatch S.c.ldims S.P ps → Props.PushInStorage S.cfg S.P S.c.ldims S.c.ibn ps) : SoundG S := by
  have e : S.g.act = Spec.yz := act_yz hi
  have hg := hF.good; have hr := hF.room (le_refl w); have hr1 := hF.room (w' := 1) hw
  rw [e] at hg hr hr1
  refine ⟨cov, stor hg hr, fun ps hp => ?_, fun x v s hs i j k => ?_⟩
  · rw [hM]; exact (Props.C56_rho S.P hF.dx _ _ ps hp).2.1 hr1
  · rw [hM]; exact nc1_yz_cov x v s (hs 0 (by rw [hi]; rfl)) i j k

theorem Scheme.soundG {S : Setup} (h : Scheme S) (hF : Fit S 2) : SoundG S := by
  obtain ⟨hc, -, hM⟩ | ⟨hc, -, hM⟩ := h
  · refine soundG_xyz hF (by omega) (by rw [hc]; rfl) hM (by rw [hc]; exact cov_split_xyz _) fun hg hr ps hp => ?_
    rw [hc]; exact Props.C56_split_xyz S.P hg _ _ hr ps hp
  · refine soundG_yz hF (by omega) (by rw [hc]; rfl) hM (by rw [hc]; exact cov_var1_yz _) fun hg hr ps hp => ?_
    rw [hc]; exact Props.C56_var1_yz S.P hg _ _ hr ps hp

theorem SchemeIf.soundG {S : Setup} {w : ℤ} (h : SchemeIf S w) (hF : Fit S w) (hM : Marder1st S) : 2 ≤ w ∧ SoundG S := by
  obtain ⟨hc, -, hx⟩ | ⟨hc, -⟩ | ⟨hc, -⟩ | ⟨hc, -⟩ := h
  · refine ⟨by omega, soundG_yz hF (by omega) (by rw [hc]; rfl) (hM.2 (by rw [hc]; rfl)) (by rw [hc]; exact cov_split_yz _)
      fun hg hr ps hp => ?_⟩
    rw [hc]; exact Props.C56_split_yz_partial S.P hg hx _ _ hr ps hp
  · refine ⟨by omega, soundG_yz hF (by omega) (by rw [hc]; rfl) (hM.2 (by rw [hc]; rfl)) (by rw [hc]; exact cov_esirkepov1_yz _)
      fun hg hr ps hp => ?_⟩
    rw [hc]; exact Props.C56_esirkepov1_yz S.P hg _ _ hr ps hp
  · refine ⟨by omega, soundG_xyz hF (by omega) (by rw [hc]; rfl) (hM.1 (by rw [hc]; rfl)) (by rw [hc]; exact cov_esirkepov2_xyz _)
      fun hg hr ps hp => ?_⟩
    rw [hc]; exact Props.C56_esirkepov2_xyz_partial S.P hg _ _ hr ps hp
  · refine ⟨by omega, soundG_yz hF (by omega) (by rw [hc]; rfl) (hM.2 (by rw [hc]; rfl)) (by rw [hc]; exact cov_esirkepov2_yz _)
      fun hg hr ps hp => ?_⟩
    rw [hc]; exact Props.C56_esirkepov2_yz_partial S.P hg _ _ hr ps hp

/-! ### Two decompositions -/

theorem represented {S : Setup} {s : State} (h : FieldsAgree S s.flds) :
    ∃ G, G.prts = globalPrts S s.prts ∧ Represents S s G := by
  obtain ⟨E, H, pE, pH, hE, hH⟩ := h.get
  exact ⟨⟨_, E, H⟩, rfl, List.Perm.refl _, pE, pH, hE, hH⟩

theorem wrap_interior {S : Setup} {w : ℤ} (hF : Fit S w) {r p : ℕ} (h : S.c.D.Has r p) {n : I3} (hn : Interior S.c n) :
    wrap S.c (fun d => S.c.off r p d + n d) = fun d => S.c.off r p d + n d := by
  funext d
  unfold wrap
  split_ifs
  · have h1 := (Props.C25_idx3_owner S.c.D hF.valid.valid r p h).1 d
    have h2 := hn d
    refine Int.emod_eq_of_lt ?_ ?_
    · show 0 ≤ (S.c.D.idx3 r p d : ℤ) * S.c.ldims d + n d
      have : (0 : ℤ) ≤ (S.c.D.idx3 r p d : ℤ) * S.c.ldims d := mul_nonneg (by omega) (hF.pos d).le
      omega
    · show (S.c.D.idx3 r p d : ℤ) * S.c.ldims d + n d < S.c.D.np d * S.c.ldims d
      have : ((S.c.D.idx3 r p d : ℤ) + 1) ≤ S.c.D.np d := by omega
      have := mul_le_mul_of_nonneg_right this (hF.pos d).le
      linarith
  · rfl

theorem Represents.congr {S S' : Setup} {w w' : ℤ} (hF : Fit S w) (hF' : Fit S' w') (hw : 2 ≤ w) (hw' : 2 ≤ w') (hQ : S.problem = S'.problem)
    {s s' : State} (h' : FieldsAgree S' s'.flds) (hss : SameState S S' s s') {G : Serial.State} (hR : Represents S s G) :
    Represents S' s' G := by
  have eg : S.c.gdims = S'.c.gdims := congrArg Serial.Problem.gdims hQ
  have eb : S.c.D.bc = S'.c.D.bc := congrArg Serial.Problem.bc hQ
  have ec : S.cfg = S'.cfg := congrArg Serial.Problem.cfg hQ
  have ew : ∀ x, wrap S'.c x = wrap S.c x := by
    intro x; funext d; unfold wrap; rw [eg, eb]
  have per : ∀ {f : I3 → ℝ}, Periodic S.c f → Periodic S'.c f := by
    intro f hf x y hxy
    exact hf x y (by rw [← ew, ← ew, hxy])
  obtain ⟨E', H', pE', pH', hE', hH'⟩ := h'.get
  have key : ∀ (m : ℕ) (F F' : I3 → ℝ), EX ≤ m → m < EX + 6 → Holds S.c s.flds m F → Holds S'.c s'.flds m F' →
      Periodic S.c F → Periodic S'.c F' → Holds S'.c s'.flds m F := by
    intro m F F' h1 h2 hF1 hF2 p1 p2 r' p' hh n hn
    rw [hF2 r' p' hh n hn]
    have hx : Active S'.g (fun d => S'.c.off r' p' d + n d) := by
      intro d hd
      have hd' : S'.cfg.inv d = true := by simpa [Setup.g, Fields.GridP.act] using hd
      have := hF'.inv d hd'
      have h0 := hF'.off_inv hh d hd'
      have := hn d
      show S'.c.off r' p' d + n d = 0
      omega
    have hnp' := has_np (hF'.fits hw') hh
    have hnp : ∀ d, 0 < S.c.D.np d := by
      intro d
      have := congrFun eg d
      unfold Cfg.gdims at this
      have h1 : (0 : ℤ) < S'.c.D.np d * S'.c.ldims d := mul_pos (by exact_mod_cast hnp' d) (hF'.pos d)
      rw [← this] at h1
      have := hF.pos d
      by_contra hc
      rw [show S.c.D.np d = 0 by omega] at h1
      simp at h1
    obtain ⟨a', b', n1', hab', hn1', hw1'⟩ := (hF'.fits hw').cover hnp' hx
    have hx2 : Active S.g (fun d => S'.c.off r' p' d + n d) := by
      intro d hd
      refine hx d ?_
      have : S.cfg.inv d = true := by simpa [Setup.g, Fields.GridP.act] using hd
      rw [ec] at this
      simpa [Setup.g, Fields.GridP.act] using this
    obtain ⟨a, b, n1, hab, hn1, hw1⟩ := (hF.fits hw).cover hnp hx2
    rw [← p2 _ _ hw1', ← p1 _ _ hw1, ← hF2 a' b' hab' n1' (interior_stored hF'.valid hn1'),
      ← hF1 a b hab n1 (interior_stored hF.valid hn1)]
    refine (hss.2 a b a' b' n1 n1' hab hab' hn1 hn1' (fun d => ?_) m h1 h2).symm
    have e : wrap S.c (fun d => S.c.off a b d + n1 d) = wrap S'.c (fun d => S'.c.off a' b' d + n1' d) := by
      rw [hw1, hw1', ew]
    rw [wrap_interior hF hab hn1, wrap_interior hF' hab' hn1'] at e
    exact congrFun e d
  exact ⟨hss.1.symm.trans hR.prts, fun d => per (hR.perE d), fun d => per (hR.perH d),
    fun d => key _ _ _ (by omega) (by omega) (hR.E d) (hE' d) (hR.perE d) (pE' d),
    fun d => key _ _ _ (by unfold EX HX; omega) (by unfold EX HX; omega) (hR.H d) (hH' d) (hR.perH d) (pH' d)⟩

theorem Represents.same {S S' : Setup} (hv : S.c.Ok) (hv' : S'.c.Ok) {s s' : State} {G : Serial.State} (h : Represents S s G)
    (h' : Represents S' s' G) : SameState S S' s s' := by
  refine ⟨h.prts.trans h'.prts.symm, fun r p r' p' n n' hh hh' hn hn' e m h1 h2 => ?_⟩
  have ee : (fun d => S.c.off r p d + n d) = fun d => S'.c.off r' p' d + n' d := funext e
  by_cases hm : m < HX
  · have e1 := h.E ⟨m - EX, by unfold HX EX at *; omega⟩ r p hh n (interior_stored hv hn)
    have e2 := h'.E ⟨m - EX, by unfold HX EX at *; omega⟩ r' p' hh' n' (interior_stored hv' hn')
    simp only [show EX + (m - EX) = m by omega] at e1 e2
    rw [e1, e2, ee]
  · have e1 := h.H ⟨m - HX, by unfold HX EX at *; omega⟩ r p hh n (interior_stored hv hn)
    have e2 := h'.H ⟨m - HX, by unfold HX EX at *; omega⟩ r' p' hh' n' (interior_stored hv' hn')
    simp only [show HX + (m - HX) = m by omega] at e1 e2
    rw [e1, e2, ee]

theorem run_same {S S' : Setup} {w w' : ℤ} (hF : Fit S w) (hF' : Fit S' w') (hw : 2 ≤ w) (hw' : 2 ≤ w') (hS : SoundG S)
    (hS' : SoundG S') (hQ : S.problem = S'.problem) (l l' : List StepIn) (hl : ∀ i ∈ l, OnlySorts i)
    (hl' : ∀ i ∈ l', OnlySorts i) (hll : l.map corrs = l'.map corrs) (s s' : State) (hs : FieldsAgree S s.flds)
    (hs' : FieldsAgree S' s'.flds) (hp : PrtsInside S s.prts) (hp' : PrtsInside S' s'.prts) (hss : SameState S S' s s') :
    ∃ t t', run S l s = some t ∧ run S' l' s' = some t' ∧ SameState S S' t t' := by
  obtain ⟨G, -, hR⟩ := represented hs
  have hR' := hR.congr hF hF' hw hw' hQ hs' hss
  obtain ⟨t, e1, -, q1⟩ := run_serial hF hw hS l hl hp hR
  obtain ⟨t', e2, -, q2⟩ := run_serial hF' hw' hS' l' hl' hp' hR'
  rw [← hQ, ← hll] at q2
  exact ⟨t, t', e1, e2, q1.same hF.valid hF'.valid q2⟩

end

end Psc.Pic
