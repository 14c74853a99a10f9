import Verif.Lemmas.ExchangeWeight
import Verif.Spec.Pic
import Verif.Props.FieldStep
import Verif.Props.Storage
import Verif.Props.Deposit
import Mathlib.Algebra.BigOperators.Field

/-!
# From the particles of each patch to the charge and current of the whole domain
-/

namespace Psc.Pic

open Domain Ddc FieldStep Spec Yee

/-! ### Weak form of sums of accumulations -/

section weak
variable {K : Type} [Field K]

/-- where an accumulation goes -/
def at_ (e : Add K) : I3 := ![e.i, e.j, e.k]

/-- the integral of component `m` of a list of accumulations against a test function -/
def W (evs : List (Add K)) (m : Fin 3) (g : I3 → K) : K :=
  (evs.map fun e => if e.m = m then g (at_ e) * e.v else 0).sum

theorem W_nil (m : Fin 3) (g : I3 → K) : W ([] : List (Add K)) m g = 0 := rfl

theorem W_cons (e : Add K) (l : List (Add K)) (m : Fin 3) (g : I3 → K) :
    W (e :: l) m g = (if e.m = m then g (at_ e) * e.v else 0) + W l m g := by simp [W]

theorem W_append (l l' : List (Add K)) (m : Fin 3) (g : I3 → K) : W (l ++ l') m g = W l m g + W l' m g := by
  simp [W]

theorem W_flatMap {α : Type} (l : List α) (f : α → List (Add K)) (m : Fin 3) (g : I3 → K) :
    W (l.flatMap f) m g = (l.map fun a => W (f a) m g).sum := by
  induction l with
  | nil => rfl
  | cons a l ih => rw [List.flatMap_cons, W_append, ih, List.map_cons, List.sum_cons]

theorem eq_at (e : Add K) (n : I3) : (e.i = n 0 ∧ e.j = n 1 ∧ e.k = n 2) ↔ at_ e = n := by
  constructor
  · rintro ⟨a, b, c⟩; funext d; fin_cases d
    · exact a
    · exact b
    · exact c
  · rintro rfl; exact ⟨rfl, rfl, rfl⟩

theorem sum_fieldOf (evs : List (Add K)) (m : Fin 3) (g : I3 → K) (S : Finset I3)
    (h : ∀ e ∈ evs, e.m = m → at_ e ∈ S) : ∑ n ∈ S, g n * fieldOf evs m (n 0) (n 1) (n 2) = W evs m g := by
  induction evs with
  | nil => simp [fieldOf, W]
  | cons e l ih =>
    rw [W_cons, ← ih fun e he => h e (List.mem_cons_of_mem _ he)]
    simp only [fieldOf, List.map_cons, List.sum_cons, mul_add, Finset.sum_add_distrib]
    congr 1
    by_cases hm : e.m = m
    · have hS := h e List.mem_cons_self hm
      simp only [hm, true_and, eq_at, if_true, mul_ite, mul_zero]
      rw [Finset.sum_ite_eq, if_pos hS]
    · simp [hm]

theorem W_congr {L L' : List (Add K)} {m : Fin 3} (h : ∀ i j k, fieldOf L m i j k = fieldOf L' m i j k) (g : I3 → K) :
    W L m g = W L' m g := by
  let S : Finset I3 := (L.map at_).toFinset ∪ (L'.map at_).toFinset
  rw [← sum_fieldOf L m g S, ← sum_fieldOf L' m g S]
  · exact Finset.sum_congr rfl fun n _ => by rw [h]
  · intro e he _
    exact Finset.mem_union_right _ (List.mem_toFinset.2 (List.mem_map_of_mem he))
  · intro e he _
    exact Finset.mem_union_left _ (List.mem_toFinset.2 (List.mem_map_of_mem he))

/-- all accumulations moved by `s` -/
def moveBy (s : I3) (evs : List (Add K)) : List (Add K) :=
  evs.map fun e => ⟨e.m, e.i + s 0, e.j + s 1, e.k + s 2, e.v⟩

theorem fieldOf_moveBy (s : I3) (evs : List (Add K)) (m : Fin 3) (i j k : ℤ) :
    fieldOf (moveBy s evs) m i j k = fieldOf evs m (i - s 0) (j - s 1) (k - s 2) := by
  unfold fieldOf moveBy
  rw [List.map_map]
  refine congrArg List.sum (List.map_congr_left fun e _ => ?_)
  simp only [Function.comp]
  refine if_congr ?_ rfl rfl
  constructor <;> rintro ⟨a, b, c, d⟩ <;> exact ⟨a, by omega, by omega, by omega⟩

theorem W_moveBy (s : I3) (evs : List (Add K)) (m : Fin 3) (g : I3 → K) :
    W (moveBy s evs) m g = W evs m (fun n => g (fun d => n d + s d)) := by
  unfold W moveBy
  rw [List.map_map]
  refine congrArg List.sum (List.map_congr_left fun e _ => ?_)
  have : at_ (⟨e.m, e.i + s 0, e.j + s 1, e.k + s 2, e.v⟩ : Add K) = fun d => at_ e d + s d := by
    funext d; fin_cases d <;> rfl
  simp only [Function.comp, this]

/-- unit vector -/
def unit (d : Fin 3) : I3 := fun e => if e = d then 1 else 0

/-- The continuity equation against a test function. -/
theorem weak {act : Fin 3 → Bool} {dx : R3 K} {dt : K} {R0 R1 J : List (Add K)}
    (h : Continuity act dx dt (fieldOf R0 0) (fieldOf R1 0) (fieldOf J)) (g : I3 → K) :
    W R1 0 g - W R0 0 g + dt * (
      (if act 0 then (W J 0 g - W J 0 (fun n => g (shift n 0 1))) / dx 0 else 0) +
      (if act 1 then (W J 1 g - W J 1 (fun n => g (shift n 1 1))) / dx 1 else 0) +
      (if act 2 then (W J 2 g - W J 2 (fun n => g (shift n 2 1))) / dx 2 else 0)) = 0 := by
  classical
  have hsh : ∀ d, (fun n => g (shift n d 1)) = fun n : I3 => g (fun e => n e + unit d e) := by
    intro d; funext n; congr 1; funext e; unfold shift unit; split_ifs <;> simp
  simp only [hsh, ← W_moveBy]
  let all := R0 ++ R1 ++ J ++ moveBy (unit 0) J ++ moveBy (unit 1) J ++ moveBy (unit 2) J
  let S : Finset I3 := (all.map at_).toFinset
  have hS : ∀ l : List (Add K), (∀ e ∈ l, e ∈ all) → ∀ (m : Fin 3), ∀ e ∈ l, e.m = m → at_ e ∈ S :=
    fun l hl m e he _ => List.mem_toFinset.2 (List.mem_map_of_mem (hl e he))
  have hm : ∀ e : Add K, e ∈ all ↔
      e ∈ R0 ∨ e ∈ R1 ∨ e ∈ J ∨ e ∈ moveBy (unit 0) J ∨ e ∈ moveBy (unit 1) J ∨ e ∈ moveBy (unit 2) J := by
    intro e; simp only [all, List.mem_append]; tauto
  have i0 := sum_fieldOf R0 0 g S (hS _ (fun e he => (hm e).2 (by tauto)) 0)
  have i1 := sum_fieldOf R1 0 g S (hS _ (fun e he => (hm e).2 (by tauto)) 0)
  have j : ∀ d, ∑ n ∈ S, g n * fieldOf J d (n 0) (n 1) (n 2) = W J d g :=
    fun d => sum_fieldOf J d g S (hS _ (fun e he => (hm e).2 (by tauto)) d)
  have k0 := sum_fieldOf (moveBy (unit 0) J) 0 g S (hS _ (fun e he => (hm e).2 (by tauto)) 0)
  have k1 := sum_fieldOf (moveBy (unit 1) J) 1 g S (hS _ (fun e he => (hm e).2 (by tauto)) 1)
  have k2 := sum_fieldOf (moveBy (unit 2) J) 2 g S (hS _ (fun e he => (hm e).2 (by tauto)) 2)
  rw [← i0, ← i1, ← j 0, ← j 1, ← j 2, ← k0, ← k1, ← k2]
  have z : ∑ n ∈ S, g n * (fieldOf R1 0 (n 0) (n 1) (n 2) - fieldOf R0 0 (n 0) (n 1) (n 2) +
      dt * Spec.div act dx (fieldOf J) (n 0) (n 1) (n 2)) = 0 :=
    Finset.sum_eq_zero fun n _ => by rw [h]; ring
  refine Eq.trans ?_ z
  simp only [fieldOf_moveBy, unit, Spec.div]
  rw [← Finset.sum_sub_distrib]
  have e : ∀ (b : Bool) (A B : I3 → K) (x : K),
      (if b then (∑ n ∈ S, g n * A n - ∑ n ∈ S, g n * B n) / x else 0) =
      ∑ n ∈ S, g n * (if b then (A n - B n) / x else 0) := by
    intro b A B x
    cases b
    · simp
    · simp only [if_true]
      rw [← Finset.sum_sub_distrib, Finset.sum_div]
      exact Finset.sum_congr rfl fun n _ => by ring
  rw [e, e, e, ← Finset.sum_add_distrib, ← Finset.sum_add_distrib, Finset.mul_sum, ← Finset.sum_add_distrib]
  refine Finset.sum_congr rfl fun n _ => ?_
  simp only [show ((0 : Fin 3) = 1) = False by simp, show ((0 : Fin 3) = 2) = False by simp, show ((1 : Fin 3) = 0) = False by simp,
    show ((1 : Fin 3) = 2) = False by simp, show ((2 : Fin 3) = 0) = False by simp, show ((2 : Fin 3) = 1) = False by simp,
    if_true, if_false, sub_zero]
  ring

end weak

/-! ### Totals over all patches -/

noncomputable section

/-- indicator of the cells of patch `rp` that are the global cell `x` -/
def ind (c : Cfg) (rp : ℕ × ℕ) (x n : I3) : ℝ := if phys c rp.1 rp.2 n = wrap c x then 1 else 0

theorem total_depOf {c : Cfg} {L : ℕ → ℕ → List (Add ℝ)}
    (h : ∀ r p, c.D.Has r p → WritesStorage c.ldims c.ibn (L r p)) (m : Fin 3) (x : I3) :
    total c (fun r p => depOf (L r p)) m x = ∑ rp ∈ patches c.D, W (L rp.1 rp.2) m (ind c rp x) := by
  unfold total
  refine Finset.sum_congr rfl fun rp hrp => ?_
  rw [← sum_fieldOf (L rp.1 rp.2) m (ind c rp x) (storedCells c)]
  · refine Finset.sum_congr rfl fun n _ => ?_
    unfold ind depOf
    simp only
    rw [dif_pos m.2]
    split_ifs <;> simp
  · intro e he _
    have := h rp.1 rp.2 (mem_patches.1 hrp) e he
    rw [mem_stored]
    obtain ⟨a, b, d⟩ := this
    intro d'
    fin_cases d'
    · exact a
    · exact b
    · exact d

theorem ind_shift (c : Cfg) (rp : ℕ × ℕ) (x n : I3) (d : Fin 3) :
    ind c rp x (shift n d 1) = ind c rp (shift x d (-1)) n := by
  unfold ind
  refine if_congr ?_ rfl rfl
  rw [phys_wrap, phys_wrap]
  have e1 : (fun e => c.off rp.1 rp.2 e + shift n d 1 e) = shift (fun e => c.off rp.1 rp.2 e + n e) d 1 := by
    funext e; unfold shift; split_ifs <;> ring
  rw [e1]
  have sh : ∀ (y : I3) (s : ℤ), shift (shift y d s) d (-s) = y := by
    intro y s; funext e; unfold shift; split_ifs <;> ring
  constructor
  · intro h
    have := wrap_shift h d (-1)
    rwa [sh _ 1] at this
  · intro h
    have := wrap_shift h d 1
    have e2 := sh x (-1)
    rw [neg_neg] at e2
    rwa [e2] at this

/-- charge density of all particles -/
def rhoG (S : Setup) (prts : ℕ → ℕ → List Push.Prt) (x : I3) : ℝ :=
  ∑ rp ∈ patches S.c.D, W (Push.rho S.dep S.P (prts rp.1 rp.2)) 0 (ind S.c rp x)

/-- What is needed of a push configuration and its charge deposition, for one patch at a time. -/
structure Sound (S : Setup) : Prop where
  cont : ∀ EM ps, (∀ p ∈ ps, S.P.q p.kind ≠ 0) →
    Continuity S.g.act S.P.dx S.P.dt (fieldOf (Push.rho S.dep S.P ps) 0)
      (fieldOf (Push.rho S.dep S.P (Push.pushAll S.cfg S.P EM ps).1) 0) (fieldOf (Push.pushAll S.cfg S.P EM ps).2)
  jstor : ∀ EM ps, Props.InPatch S.c.ldims S.P ps → WritesStorage S.c.ldims S.c.ibn (Push.pushAll S.cfg S.P EM ps).2
  rstor : ∀ ps, Props.InPatch S.c.ldims S.P ps → WritesStorage S.c.ldims S.c.ibn (Push.rho S.dep S.P ps)
  cov : ∀ (x : R3 ℝ) (v : ℝ) (s : I3), (∀ d, S.cfg.inv d = true → s d = 0) → ∀ i j k,
    fieldOf (S.dep (fun d => x d + s d) v) 0 i j k = fieldOf (S.dep x v) 0 (i - s 0) (j - s 1) (k - s 2)

theorem rhoG_periodic (S : Setup) (prts : ℕ → ℕ → List Push.Prt) : Periodic S.c (rhoG S prts) := by
  intro x y h
  unfold rhoG ind
  rw [h]

theorem itemRho_spec {S : Setup} (hf : Fits S.c S.g) (h : Sound S) {prts : ℕ → ℕ → List Push.Prt} (hp : PrtsInside S prts) :
    ∃ rho, itemRho S prts = some rho ∧ Owns S.c rho 0 (rhoG S prts) := by
  obtain ⟨τ, h1, h2, -⟩ := addAll_spec hf 0 1 (by omega) (fun r p => depOf (Push.rho S.dep S.P (prts r p)))
  refine ⟨τ, h1, ?_⟩
  have := h2 0 (le_refl _) (by omega)
  have e : total S.c (fun r p => depOf (Push.rho S.dep S.P (prts r p))) 0 = rhoG S prts := by
    funext x
    exact total_depOf (c := S.c) (L := fun r p => Push.rho S.dep S.P (prts r p))
      (fun r p hh => h.rstor _ (hp r p hh)) 0 x
  rwa [e] at this

/-- Continuity of the push on all patches, on the whole domain. -/
theorem push_continuity {S : Setup} (h : Sound S) {prts : ℕ → ℕ → List Push.Prt} (flds : Glob ℝ) (hp : PrtsInside S prts)
    (hq : PrtsCharged S prts) (x : I3) :
    rhoG S (pushPrts S prts flds).1 x - rhoG S prts x +
      S.P.dt * Yee.divE S.g.act S.P.dx (fun d : Fin 3 => total S.c (pushPrts S prts flds).2 (JXI + d)) x = 0 := by
  have hJ : ∀ (d : Fin 3) (y : I3), total S.c (pushPrts S prts flds).2 (JXI + d) y =
      ∑ rp ∈ patches S.c.D, W (Push.pushAll S.cfg S.P (emOf (flds rp.1 rp.2)) (prts rp.1 rp.2)).2 d (ind S.c rp y) := by
    intro d y
    rw [show JXI + (d : ℕ) = d by simp [JXI]]
    exact total_depOf (c := S.c) (L := fun r p => (Push.pushAll S.cfg S.P (emOf (flds r p)) (prts r p)).2)
      (fun r p hh => h.jstor _ _ (hp r p hh)) d y
  have hw : ∀ rp ∈ patches S.c.D, _ := fun rp hrp =>
    weak (h.cont (emOf (flds rp.1 rp.2)) (prts rp.1 rp.2) (hq rp.1 rp.2 (mem_patches.1 hrp))) (ind S.c rp x)
  have hz := Finset.sum_eq_zero hw
  simp only [ind_shift] at hz
  refine Eq.trans ?_ hz
  unfold rhoG Yee.divE Yee.dB
  simp only [hJ]
  rw [← Finset.sum_sub_distrib]
  have e : ∀ (b : Bool) (A B : ℕ × ℕ → ℝ) (y : ℝ),
      (if b then (∑ rp ∈ patches S.c.D, A rp - ∑ rp ∈ patches S.c.D, B rp) / y else 0) =
      ∑ rp ∈ patches S.c.D, (if b then (A rp - B rp) / y else 0) := by
    intro b A B y
    cases b
    · simp
    · simp only [if_true]
      rw [← Finset.sum_sub_distrib, Finset.sum_div]
  rw [e, e, e, ← Finset.sum_add_distrib, ← Finset.sum_add_distrib, Finset.mul_sum, ← Finset.sum_add_distrib]
  refine Finset.sum_congr rfl fun rp _ => ?_
  rfl

/-- contribution of one particle of patch `rp` to the charge density at `x` -/
def wt (S : Setup) (x : I3) (rp : ℕ × ℕ) (q : Push.Prt) : ℝ :=
  W (Deposit.code S.dep S.P.dx S.P.fnqs q.x (Push.charge S.P q)) 0 (ind S.c rp x)

theorem sum_patches {D : Decomp} (f : ℕ × ℕ → ℝ) : ∑ rp ∈ patches D, f rp = ((Bndp.allPatches D).map f).sum := by
  have : patches D = (Bndp.allPatches D).toFinset := by
    ext ⟨r, p⟩; rw [mem_patches, List.mem_toFinset, Bndp.mem_allPatches]
  rw [this, List.sum_toFinset _ (Bndp.nodup_allPatches D)]

theorem rhoG_eq (S : Setup) (prts : ℕ → ℕ → List Push.Prt) (x : I3) :
    rhoG S prts x = ((Bndp.allPatches S.c.D).map fun rp => ((prts rp.1 rp.2).map (wt S x rp)).sum).sum := by
  unfold rhoG
  rw [sum_patches]
  refine congrArg List.sum (List.map_congr_left fun rp _ => ?_)
  unfold Push.rho
  rw [W_flatMap]
  rfl

theorem rhoG_pre (S : Setup) {i : StepIn} (hi : KeepsCharge i) (prts : ℕ → ℕ → List Push.Prt) (x : I3) :
    rhoG S (fun r p => i.pre r p (prts r p)) x = rhoG S prts x := by
  rw [rhoG_eq, rhoG_eq]
  refine congrArg List.sum (List.map_congr_left fun rp _ => ?_)
  have hw : ∀ l : List Push.Prt, l.map (wt S x rp) = (l.map fun q => (q.x, q.qw, q.kind)).map
      fun t => wt S x rp ⟨t.1, 0, t.2.1, t.2.2⟩ := by
    intro l; rw [List.map_map]; rfl
  rw [hw, hw]
  exact ((hi rp.1 rp.2 (prts rp.1 rp.2)).map _).sum_eq

theorem pre_mem {i : StepIn} (hi : KeepsCharge i) {r p : ℕ} {l : List Push.Prt} {q : Push.Prt} (hq : q ∈ i.pre r p l) :
    ∃ q' ∈ l, q'.x = q.x ∧ q'.kind = q.kind := by
  have h1 : (q.x, q.qw, q.kind) ∈ (i.pre r p l).map fun q => (q.x, q.qw, q.kind) := List.mem_map.2 ⟨q, hq, rfl⟩
  rw [(hi r p l).mem_iff, List.mem_map] at h1
  obtain ⟨q', hq', e⟩ := h1
  simp only [Prod.mk.injEq] at e
  exact ⟨q', hq', e.1, e.2.2⟩

/-- A particle that moves from patch `rp` to patch `rp'`, its position shifted by whole cells that make up for the
different offsets, contributes the same. -/
theorem wt_move {S : Setup} (hdx : ∀ d, 0 < S.P.dx d) (h : Sound S) (x : I3) {rp rp' : ℕ × ℕ} {q q' : Push.Prt} (s : I3)
    (hs : ∀ d, S.cfg.inv d = true → s d = 0) (hx : ∀ d, q'.x d + s d * S.P.dx d = q.x d) (hw : q'.qw = q.qw)
    (hk : q'.kind = q.kind)
    (ho : ∀ n : I3, phys S.c rp'.1 rp'.2 n = phys S.c rp.1 rp.2 (fun d => n d + s d)) : wt S x rp' q' = wt S x rp q := by
  unfold wt Deposit.code
  have e1 : Push.charge S.P q' = Push.charge S.P q := by unfold Push.charge; rw [hw, hk]
  have e2 : (fun d => q.x d * (1 / S.P.dx d)) = fun d => q'.x d * (1 / S.P.dx d) + s d := by
    funext d
    have := (hdx d).ne'
    rw [← hx d]; field_simp
  rw [e1, e2]
  have e3 : ∀ g, W (S.dep (fun d => q'.x d * (1 / S.P.dx d) + s d) (S.P.fnqs * Push.charge S.P q)) 0 g =
      W (moveBy s (S.dep (fun d => q'.x d * (1 / S.P.dx d)) (S.P.fnqs * Push.charge S.P q))) 0 g := by
    intro g
    refine W_congr (fun i j k => ?_) g
    rw [fieldOf_moveBy, h.cov _ _ s hs]
  rw [e3, W_moveBy]
  have e4 : (fun n : I3 => ind S.c rp x fun d => n d + s d) = ind S.c rp' x := by
    funext n
    unfold ind
    rw [ho n]
  rw [e4]

theorem Fit.fits {S : Setup} {w : ℤ} (h : Fit S w) (hw : 2 ≤ w) : Fits S.c S.g where
  ok := h.valid
  ldims := rfl
  pos := h.pos
  inv := h.inv
  act := fun d hd => ⟨(h.act d hd).1, le_trans hw (h.act d hd).2.1⟩
  dx := fun d => (h.dx d).ne'
  dt := h.dt.ne'

/-- particles less than a patch length away from their patch, and inside it in invariant directions -/
def PrtsNear (S : Setup) (prts : ℕ → ℕ → List Push.Prt) : Prop :=
  ∀ r p, S.c.D.Has r p → ∀ q ∈ prts r p, ∀ d,
    (-(S.c.ldims d * S.P.dx d) < q.x d ∧ q.x d < 2 * (S.c.ldims d * S.P.dx d)) ∧
    (S.cfg.inv d = true → 0 ≤ q.x d ∧ q.x d < S.c.ldims d * S.P.dx d)

/-- The exchange of particles does not change sums over all particles of what does not change when a particle is
re-expressed in the frame of another patch. -/
theorem exchange_core {S : Setup} {w : ℤ} (hF : Fit S w) {prts : ℕ → ℕ → List Push.Prt} (hn : PrtsNear S prts)
    {R : Type} [AddCommMonoid R] (wt : ℕ × ℕ → Push.Prt → R)
    (hmove : ∀ (rp rp' : ℕ × ℕ) (q q' : Push.Prt) (s : I3), (∀ d, S.cfg.inv d = true → s d = 0) →
      (∀ d, q'.x d + s d * S.P.dx d = q.x d) → q'.u = q.u → q'.qw = q.qw → q'.kind = q.kind →
      (∀ n : I3, phys S.c rp'.1 rp'.2 n = phys S.c rp.1 rp.2 (fun d => n d + s d)) → wt rp' q' = wt rp q) :
    ∃ T, exchangePrts S prts = some T ∧ PrtsInside S T ∧ (PrtsCharged S prts → PrtsCharged S T) ∧
      ((Bndp.allPatches S.c.D).map fun rp => ((T rp.1 rp.2).map (wt rp)).sum).sum =
      ((Bndp.allPatches S.c.D).map fun rp => ((prts rp.1 rp.2).map (wt rp)).sum).sum := by
  set g := S.ex with hg
  set pB : ℕ → ℕ → List (Bndp.Prt ℝ (ℝ × ℕ)) := fun r p => (prts r p).map toB with hpB
  have hD : g.D.Valid := hF.valid.valid
  have hok : ∀ d, 0 < g.ldims d ∧ 0 < g.dx d := fun d => ⟨hF.pos d, hF.dx d⟩
  have mem : ∀ r p (b : Bndp.Prt ℝ (ℝ × ℕ)), b ∈ pB r p → ∃ q ∈ prts r p, toB q = b := fun r p b hb => List.mem_map.1 hb
  have hsize : ∀ r p d, (g.patch r p).size d = S.c.ldims d * S.P.dx d := fun r p d => rfl
  have near : Bndp.AllNear g pB := by
    intro r p hh b hb d
    obtain ⟨q, hq', rfl⟩ := mem r p b hb
    exact (hn r p hh q hq' d).1
  have invin : ∀ r p, g.D.Has r p → ∀ b ∈ pB r p, ∀ d, S.cfg.inv d = true → 0 ≤ b.x d ∧ b.x d < (g.patch r p).size d := by
    intro r p hh b hb d hd
    obtain ⟨q, hq', rfl⟩ := mem r p b hb
    exact (hn r p hh q hq' d).2 hd
  have hper : ∀ d, g.prt_lo d = .periodic ∨ g.prt_hi d = .periodic → g.D.bc d = true ∨
      ∀ r p, g.D.Has r p → ∀ q ∈ pB r p, 0 ≤ q.x d ∧ q.x d < (g.patch r p).size d := by
    intro d _
    cases hd : S.cfg.inv d
    · exact Or.inl (hF.act d hd).1
    · exact Or.inr fun r p hh b hb => invin r p hh b hb d hd
  have lo : ∀ d, S.cfg.inv d = false → g.prt_lo d = .periodic := fun d hd => (hF.act d hd).2.2.1
  have hi : ∀ d, S.cfg.inv d = false → g.prt_hi d = .periodic := fun d hd => (hF.act d hd).2.2.2.1
  have nohit : ∀ r p, g.D.Has r p → ∀ b ∈ pB r p, ∀ d, ¬ Bndp.HitLo (g.patch r p) b.x d ∧
      ¬ Bndp.HitHi (g.patch r p) b.x d ∧ ¬ Bndp.LeftOpen (g.patch r p) b.x d := by
    intro r p hh b hb d
    cases hd : S.cfg.inv d
    · have h1 : (g.patch r p).prt_lo d = .periodic := lo d hd
      have h2 : (g.patch r p).prt_hi d = .periodic := hi d hd
      unfold Bndp.HitLo Bndp.HitHi Bndp.LeftOpen Bndp.Removes
      rw [h1, h2]
      simp
    · obtain ⟨a1, a2⟩ := invin r p hh b hb d hd
      unfold Bndp.HitLo Bndp.HitHi Bndp.LeftOpen
      refine ⟨fun h => ?_, fun h => ?_, fun h => ?_⟩
      · linarith [h.1]
      · linarith [h.1]
      · rcases h with h | h <;> linarith [h.1]
  have hleave : ∀ r p, g.D.Has r p → ∀ b ∈ pB r p, ¬ Bndp.Leaves (g.patch r p) b.x := by
    rintro r p hh b hb ⟨d, hd⟩
    exact (nohit r p hh b hb d).2.2 hd
  obtain ⟨T, hT, hin, hperm⟩ := Props.C19_exchange_conserves_partial g hD hok pB near hper
  have hex : exchangePrts S prts = some fun r p => (((Bndp.exchange g pB r).getD fun _ => []) p).map ofB := by
    unfold exchangePrts
    rw [if_pos]
    intro r hr
    show (Bndp.exchange g pB r).isSome = true
    rw [hT r (List.mem_range.1 hr)]
    rfl
  have eT : ∀ r p, S.c.D.Has r p → (((Bndp.exchange g pB r).getD fun _ => []) p).map ofB = (T r p).map ofB := by
    intro r p hh
    rw [hT r hh.1]; rfl
  refine ⟨_, hex, ?_, ?_, ?_⟩
  · intro r p hh q hq' d
    simp only [eT r p hh] at hq'
    obtain ⟨b, hb, rfl⟩ := List.mem_map.1 hq'
    exact hin r p hh b hb d
  · intro hq r p hh q hq'
    simp only [eT r p hh] at hq'
    obtain ⟨b, hb, rfl⟩ := List.mem_map.1 hq'
    have h1 : b.rest ∈ (Bndp.allPatches g.D).flatMap fun rp => (T rp.1 rp.2).map Bndp.Prt.rest :=
      List.mem_flatMap.2 ⟨(r, p), Bndp.mem_allPatches.2 hh, List.mem_map.2 ⟨b, hb, rfl⟩⟩
    rw [hperm.mem_iff, List.mem_flatMap] at h1
    obtain ⟨⟨r', p'⟩, hrp, h1⟩ := h1
    obtain ⟨b', hb', e⟩ := List.mem_map.1 h1
    obtain ⟨q', hq2, e'⟩ := mem r' p' b' (List.mem_filter.1 hb').1
    have := hq r' p' (Bndp.mem_allPatches.1 hrp) q' hq2
    have ek : q'.kind = (ofB b).kind := by
      show q'.kind = b.rest.2
      rw [← e, ← e']; rfl
    rwa [ek] at this
  · have key := Bndp.exchange_weight g hD hok pB near hper T hT (fun rp b => wt rp (ofB b))
      (fun r p hh b hb hl => absurd hl (hleave r p hh b hb)) ?_ ?_
    · have e1 : ∀ rp ∈ Bndp.allPatches S.c.D,
          (((((Bndp.exchange g pB rp.1).getD fun _ => []) rp.2).map ofB).map (wt rp)).sum =
          ((T rp.1 rp.2).map fun b => wt rp (ofB b)).sum := by
        intro rp hrp
        rw [eT rp.1 rp.2 (Bndp.mem_allPatches.1 hrp), List.map_map]
        rfl
      have e2 : ∀ rp ∈ Bndp.allPatches S.c.D, ((prts rp.1 rp.2).map (wt rp)).sum =
          ((pB rp.1 rp.2).map fun b => wt rp (ofB b)).sum := by
        intro rp _
        rw [hpB, List.map_map]
        rfl
      rw [List.map_congr_left e1, List.map_congr_left e2]
      exact key
    · intro r p hh b hb b' hb'
      obtain ⟨h1, h2⟩ := Props.C17_reexpressed (g.patch r p) hok b (near r p hh b hb) b' (fun _ => 0) (Or.inr ⟨hb', rfl⟩)
      refine hmove _ _ _ _ (fun _ => 0) (fun _ _ => rfl) (fun d => ?_)
        (funext fun d => ((h2 d).1 (nohit r p hh b hb d).1 (nohit r p hh b hb d).2.1).2) (congrArg Prod.fst h1)
        (congrArg Prod.snd h1) (fun n => by simp)
      have := ((h2 d).1 (nohit r p hh b hb d).1 (nohit r p hh b hb d).2.1).1
      simpa [ofB] using this
    · intro r p hh b hb dir b' rp' hb' hnei
      obtain ⟨r', p'⟩ := rp'
      obtain ⟨h1, h2⟩ := Props.C17_reexpressed (g.patch r p) hok b (near r p hh b hb) b' dir (Or.inl hb')
      have hdir : dir = Bndp.newDir (g.patch r p) b.x := by
        rw [Bndp.process1_eq (g := g.patch r p) hok (near r p hh b hb)] at hb'
        unfold Bndp.fate at hb'
        split_ifs at hb'
        · exact absurd hb' (by simp)
        · exact absurd hb' (by simp)
        · simp only [Option.some.injEq, Bndp.Fate.send.injEq] at hb'
          exact hb'.1.symm
      have hd : IsDir dir := by rw [hdir]; exact Bndp.newDir_isDir _ _
      have hgrid := (Props.C25_idx3_owner g.D hD r p hh).1
      obtain ⟨hh', -⟩ := Props.C26_neighbour_symm g.D hD r p r' p' dir hh hd hnei
      have hst := (nei_eq_some hD hh hh' hd).1 hnei
      have hs := ((Props.C26_neighbour_position g.D _ dir hgrid hd).1 _ (neiIdx_eq_some.2 hst)).2
      refine hmove _ _ _ _ (fun d => dir d * S.c.ldims d) (fun d hd' => ?_) (fun d => ?_)
        (funext fun d => ((h2 d).1 (nohit r p hh b hb d).1 (nohit r p hh b hb d).2.1).2) (congrArg Prod.fst h1)
        (congrArg Prod.snd h1) (fun n => ?_)
      · have : dir d = 0 := by
          obtain ⟨a1, a2⟩ := invin r p hh b hb d hd'
          rw [hdir]; unfold Bndp.newDir
          rw [if_neg (not_lt.2 a1), if_neg (not_le.2 a2)]
        rw [this, zero_mul]
      · have := ((h2 d).1 (nohit r p hh b hb d).1 (nohit r p hh b hb d).2.1).1
        rw [hsize] at this
        show b'.x d + ((dir d * S.c.ldims d : ℤ) : ℝ) * S.P.dx d = b.x d
        rw [← this]
        push_cast
        ring
      · funext d
        have hsd := hs d
        unfold StepTo at hsd
        unfold phys Cfg.off Cfg.gdims
        simp only
        change _ ∨ S.c.D.bc d = true ∧ _ at hsd
        have cast : ∀ k : ℤ, (S.c.D.idx3 r' p' d : ℤ) = S.c.D.idx3 r p d + dir d + k * S.c.D.np d →
            ((S.c.D.idx3 r' p' d : ℤ) * S.c.ldims d + n d) % (S.c.D.np d * S.c.ldims d) =
            ((S.c.D.idx3 r p d : ℤ) * S.c.ldims d + (n d + dir d * S.c.ldims d)) % (S.c.D.np d * S.c.ldims d) := by
          intro k hk
          rw [hk, show ((S.c.D.idx3 r p d : ℤ) + dir d + k * S.c.D.np d) * S.c.ldims d + n d =
            ((S.c.D.idx3 r p d : ℤ) * S.c.ldims d + (n d + dir d * S.c.ldims d)) + k * (S.c.D.np d * S.c.ldims d) by ring,
            Int.add_mul_emod_self_right]
        rcases hsd with hsd | ⟨hb, hsd | hsd⟩
        · split_ifs
          · exact cast 0 (by rw [zero_mul, add_zero]; exact hsd)
          · rw [show (S.c.D.idx3 r' p' d : ℤ) = S.c.D.idx3 r p d + dir d from hsd]; ring
        · rw [if_pos hb, if_pos hb]
          exact cast 1 (by rw [one_mul]; exact hsd)
        · rw [if_pos hb, if_pos hb]
          exact cast (-1) (Eq.trans hsd (by show (S.c.D.idx3 r p d : ℤ) + dir d - (S.c.D.np d : ℤ) = _ + -1 * (S.c.D.np d : ℤ); ring))

theorem exchange_spec {S : Setup} {w : ℤ} (hF : Fit S w) (hS : Sound S) {prts : ℕ → ℕ → List Push.Prt}
    (hn : PrtsNear S prts) (hq : PrtsCharged S prts) :
    ∃ T, exchangePrts S prts = some T ∧ PrtsInside S T ∧ PrtsCharged S T ∧ ∀ x, rhoG S T x = rhoG S prts x := by
  have hw := fun x => exchange_core hF hn (wt S x) fun rp rp' q q' s hs hx _ hqw hk ho => wt_move hF.dx hS x s hs hx hqw hk ho
  obtain ⟨T, h1, h2, h3, -⟩ := hw 0
  refine ⟨T, h1, h2, h3 hq, fun x => ?_⟩
  obtain ⟨T', g1, -, -, g4⟩ := hw x
  rw [h1] at g1
  obtain rfl := Option.some.inj g1
  rw [rhoG_eq, rhoG_eq]
  exact g4

/-! ### One step -/

theorem pushAll_mem (c : Push.Config) (P : Push.Params) (EM : Interp.Fld ℝ) (ps : List Push.Prt) (q : Push.Prt)
    (h : q ∈ (Push.pushAll c P EM ps).1) : ∃ q0 ∈ ps, q = (Push.pushOne c P EM q0).1 := by
  induction ps with
  | nil => simp [Push.pushAll] at h
  | cons p ps ih =>
    simp only [Push.pushAll, List.mem_cons] at h
    rcases h with h | h
    · exact ⟨p, List.mem_cons_self, h⟩
    · obtain ⟨q0, h0, h1⟩ := ih h
      exact ⟨q0, List.mem_cons_of_mem _ h0, h1⟩

theorem push_near' {S : Setup} {w : ℤ} (hF : Fit S w) {prts : ℕ → ℕ → List Push.Prt} (flds : Glob ℝ)
    (hp : PrtsInside S prts) : PrtsNear S (pushPrts S prts flds).1 := by
  · intro r p hh q hq' d
    obtain ⟨q0, h0, rfl⟩ := pushAll_mem _ _ _ _ _ hq'
    obtain ⟨a, b⟩ := hp r p hh q0 h0 d
    have hd := hF.dx d
    have hL : (1 : ℝ) ≤ S.c.ldims d := by exact_mod_cast hF.pos d
    have hsz : S.P.dx d ≤ S.c.ldims d * S.P.dx d := by nlinarith
    have hx : (Push.pushOne S.cfg S.P (emOf (flds r p)) q0).1.x d =
        if S.cfg.inv d then q0.x d else q0.x d + 1 * S.P.dt * Push.calc_v (Push.pushOne S.cfg S.P (emOf (flds r p)) q0).1.u d :=
      rfl
    rw [hx]
    cases hi : S.cfg.inv d
    · simp only [Bool.false_eq_true, if_false, false_implies, and_true]
      have hv := abs_lt.1 (Push.calc_v_lt (Push.pushOne S.cfg S.P (emOf (flds r p)) q0).1.u d)
      have hdt := hF.dt
      have hc := (hF.act d hi).2.2.2.2
      constructor <;> nlinarith
    · simp only [if_true]
      exact ⟨⟨by linarith, by linarith⟩, fun _ => ⟨a, b⟩⟩

theorem push_near {S : Setup} {w : ℤ} (hF : Fit S w) {prts : ℕ → ℕ → List Push.Prt} (flds : Glob ℝ)
    (hp : PrtsInside S prts) (hq : PrtsCharged S prts) :
    PrtsNear S (pushPrts S prts flds).1 ∧ PrtsCharged S (pushPrts S prts flds).1 := by
  refine ⟨push_near' hF flds hp, ?_⟩
  intro r p hh q hq'
  obtain ⟨q0, h0, rfl⟩ := pushAll_mem _ _ _ _ _ hq'
  exact hq r p hh q0 h0

/-- The particle part of a step: it succeeds, particles end up inside their patches, and the change of the charge density
is accounted for by the current deposited. -/
theorem prts_spec {S : Setup} {w : ℤ} (hF : Fit S w) (hw : 2 ≤ w) (hS : Sound S) {i : StepIn} (hi : KeepsCharge i)
    {s : State} (hp : PrtsInside S s.prts) (hq : PrtsCharged S s.prts) :
    ∃ T rho, exchangePrts S (pushPrts S (fun r p => i.pre r p (s.prts r p)) s.flds).1 = some T ∧
      itemRho S T = some rho ∧ PrtsInside S T ∧ PrtsCharged S T ∧ Owns S.c rho 0 (rhoG S T) ∧
      ∀ x, rhoG S T x - rhoG S s.prts x + S.P.dt * Yee.divE S.g.act S.P.dx (fun d : Fin 3 =>
        total S.c (pushPrts S (fun r p => i.pre r p (s.prts r p)) s.flds).2 (JXI + d)) x = 0 := by
  have hp' : PrtsInside S (fun r p => i.pre r p (s.prts r p)) := by
    intro r p hh q hq' d
    obtain ⟨q', h1, h2, -⟩ := pre_mem hi hq'
    have := hp r p hh q' h1 d
    rwa [h2] at this
  have hq' : PrtsCharged S (fun r p => i.pre r p (s.prts r p)) := by
    intro r p hh q hq'
    obtain ⟨q', h1, -, h3⟩ := pre_mem hi hq'
    have := hq r p hh q' h1
    rwa [h3] at this
  obtain ⟨hn, hc⟩ := push_near hF s.flds hp' hq'
  obtain ⟨T, h1, h2, h3, h4⟩ := exchange_spec hF hS hn hc
  obtain ⟨rho, h5, h6⟩ := itemRho_spec (hF.fits hw) hS h2
  refine ⟨T, rho, h1, h5, h2, h3, h6, fun x => ?_⟩
  rw [h4 x, ← rhoG_pre S hi s.prts x]
  exact push_continuity hS s.flds hp' hq' x

end

end Psc.Pic
