import Verif.Lemmas.WallCurrent
import Verif.Lemmas.Moments

/-!
# Charge density of all particles with walls, and what push and exchange do to it
-/

namespace Psc.WallPic

open Domain Ddc FieldStep BndFields Spec Pic

noncomputable section

/-- What is needed of a push configuration and its charge deposition, for one patch at a time. -/
structure Sound (S : Setup) : Prop where
  cont : ∀ EM ps, (∀ p ∈ ps, S.P.q p.kind ≠ 0) →
    Continuity S.g.act S.P.dx S.P.dt (fieldOf (Push.rho S.code.dep S.P ps) 0)
      (fieldOf (Push.rho S.code.dep S.P (Push.pushAll S.cfg S.P EM ps).1) 0) (fieldOf (Push.pushAll S.cfg S.P EM ps).2)
  jin : ∀ EM ps, Props.InPatch S.c.ldims S.P ps → EvP (InJ S.c S.cfg.inv) (Push.pushAll S.cfg S.P EM ps).2
  act : ∀ d, S.code.act d = !(S.cfg.inv d)
  nc : S.code = .nc1_xyz ∨ S.code = .nc1_yz
  inv1 : S.cfg.inv 1 = false
  inv2 : S.cfg.inv 2 = false

theorem Fit.good {S : Setup} (h : Fit S) : Props.GoodStep S.g.act S.P where
  dt_pos := h.dt
  dx_pos := h.dx
  courant := fun d hd => (h.act d (by simpa [Setup.g, Pic.Setup.g, Setup.pic, Fields.GridP.act] using hd)).2.1

theorem Fit.ok {S : Setup} (h : Fit S) (hS : Sound S) : S.grid.Ok S.code where
  ok := h.valid
  pos := h.pos
  inv := fun d hd => by
    have := h.inv d (by rw [hS.act] at hd; simpa using hd)
    exact ⟨this.1, this.2.1, this.2.2.1⟩
  act := fun d hd => by
    have := (h.act d (by rw [hS.act] at hd; simpa using hd)).1
    have hw : S.code.width = 1 := by rcases hS.nc with e | e <;> rw [e] <;> rfl
    show S.code.width ≤ S.c.ibn d
    omega
  per := fun d hd => by
    cases hi : S.cfg.inv d with
    | true => obtain ⟨-, -, -, -, ⟨a, b⟩, -⟩ := h.inv d hi; exact ⟨by show S.prt_lo d ≠ _; rw [a]; decide, by show S.prt_hi d ≠ _; rw [b]; decide⟩
    | false =>
      rcases (h.act d hi).2.2 with ⟨-, ⟨a, b⟩, -⟩ | ⟨hb, -⟩
      · exact ⟨by show S.prt_lo d ≠ _; rw [a]; decide, by show S.prt_hi d ≠ _; rw [b]; decide⟩
      · exact absurd (show S.c.D.bc d = true from hd) (by rw [hb]; decide)
  dx := h.dx

theorem Fit.fitsB {S : Setup} (h : Fit S) (rad : Option (Radiation ℝ)) : FitsB S.c S.g (S.bnd rad) where
  ok := h.valid
  ldims := rfl
  pos := h.pos
  inv := fun d hd => by
    obtain ⟨a, b, e, -, -, f⟩ := h.inv d hd
    exact ⟨a, b, e, f⟩
  act := fun d hd => by
    obtain ⟨a, -, f⟩ := h.act d hd
    refine ⟨a, fun hb => ?_⟩
    rcases f with ⟨-, -, f⟩ | ⟨hb', -⟩
    · exact f
    · rw [hb] at hb'; exact absurd hb' (by decide)
  dx := fun d => (h.dx d).ne'
  dt := h.dt.ne'

theorem Fit.supported {S : Setup} (h : Fit S) (rad : Option (Radiation ℝ)) : Supported (S.bnd rad) := by
  have key : ∀ d, (S.fld_lo d ≠ .other ∧ S.fld_hi d ≠ .other) ∧ (d = 0 → S.fld_lo d ≠ .conducting ∧ S.fld_hi d ≠ .conducting) := by
    intro d
    cases hi : S.cfg.inv d with
    | true =>
      obtain ⟨-, -, -, -, -, a, b⟩ := h.inv d hi
      rw [a, b]; exact ⟨by decide, fun _ => by decide⟩
    | false =>
      rcases (h.act d hi).2.2 with ⟨-, -, a, b⟩ | ⟨-, a, b⟩
      · rw [a, b]; exact ⟨by decide, fun _ => by decide⟩
      · have s : ∀ p f, Side d p f → f ≠ .other ∧ (d = 0 → f ≠ .conducting) := by
          intro p f hs
          cases hs with
          | wall hd => exact ⟨by decide, fun h => absurd h hd⟩
          | «open» => exact ⟨by decide, fun _ => by decide⟩
          | absorbing => exact ⟨by decide, fun _ => by decide⟩
        exact ⟨⟨(s _ _ a).1, (s _ _ b).1⟩, fun h0 => ⟨(s _ _ a).2 h0, (s _ _ b).2 h0⟩⟩
  exact ⟨fun d => (key d).1, (key 0).2 rfl⟩

/-- in every direction a wall of the fields is a wall of the particles and vice versa -/
theorem Fit.walls {S : Setup} (h : Fit S) (d : Fin 3) :
    (S.fld_lo d == .conducting) = (S.prt_lo d == .reflecting) ∧ (S.fld_hi d == .conducting) = (S.prt_hi d == .reflecting) := by
  cases hi : S.cfg.inv d with
  | true =>
    obtain ⟨-, -, -, -, ⟨a, b⟩, a', b'⟩ := h.inv d hi
    rw [a, b, a', b']; decide
  | false =>
    rcases (h.act d hi).2.2 with ⟨-, ⟨a, b⟩, a', b'⟩ | ⟨-, a, b⟩
    · rw [a, b, a', b']; decide
    · have s : ∀ p f, Side d p f → (f == FldBC.conducting) = (p == Bndp.PrtBC.reflecting) := by
        intro p f hs; cases hs <;> decide
      exact ⟨s _ _ a, s _ _ b⟩

theorem Scheme.sound {S : Setup} (h : Scheme S) (hF : Fit S) : Sound S := by
  have hg := hF.good
  obtain ⟨hc, hd⟩ | ⟨hc, hd⟩ := h
  · have e : S.g.act = Spec.xyz := act_xyz (S := S.pic) (by show S.cfg.inv = _; rw [hc]; rfl)
    rw [e] at hg
    refine ⟨fun EM ps hq => ?_, fun EM ps hp => ?_, ?_, Or.inl hd, by rw [hc]; rfl, by rw [hc]; rfl⟩
    · rw [e, hc, hd]; exact Props.C08_push_split_xyz S.P hg EM ps hq
    · rw [hc]; exact current_xyz_in S.c hg EM ps hp
    · rw [hc, hd]; intro d; fin_cases d <;> rfl
  · have e : S.g.act = Spec.yz := act_yz (S := S.pic) (by show S.cfg.inv = _; rw [hc]; rfl)
    rw [e] at hg
    refine ⟨fun EM ps hq => ?_, fun EM ps hp => ?_, ?_, Or.inr hd, by rw [hc]; rfl, by rw [hc]; rfl⟩
    · rw [e, hc, hd]; exact Props.C08_push_var1_yz S.P hg EM ps hq
    · rw [hc]; exact current_yz_in S.c hg EM ps hp
    · rw [hc, hd]; intro d; fin_cases d <;> rfl

/-! ### The weights of particles on the whole domain -/

/-- position in the whole domain, in cells -/
def gz (S : Setup) (rp : ℕ × ℕ) (q : Push.Prt) : R3 ℝ := fun d => q.x d * (1 / S.P.dx d) + S.c.off rp.1 rp.2 d

/-- indicator of what belongs to node `x` of the domain -/
def phi (S : Setup) (x n : I3) : ℝ := if S.grid.foldI S.code n = x then 1 else 0

/-- contribution of a particle to the charge density at `x` -/
def gw (S : Setup) (x : I3) (rp : ℕ × ℕ) (q : Push.Prt) : ℝ :=
  W (S.code.dep (gz S rp q) (S.P.fnqs * Push.charge S.P q)) 0 (phi S x)

/-- charge density of all particles at node `x` of the domain -/
def rhoW (S : Setup) (prts : ℕ → ℕ → List Push.Prt) (x : I3) : ℝ :=
  ((Bndp.allPatches S.c.D).map fun rp => ((prts rp.1 rp.2).map (gw S x rp)).sum).sum

/-- where the charge of a particle goes -/
theorem dep_at {S : Setup} (hS : Sound S) (z : R3 ℝ) (v : ℝ) : ∀ e ∈ S.code.dep z v, ∀ d,
    (S.cfg.inv d = false → at_ e d = ⌊z d⌋ ∨ at_ e d = ⌊z d⌋ + 1) ∧ (S.cfg.inv d = true → at_ e d = 0) := by
  have ha := hS.act
  intro e he d
  have hd := ha d
  rcases hS.nc with hc | hc <;> rw [hc] at he hd
  · simp only [Moments.Code.dep, Deposit.nc1_xyz, Deposit.first_xyz, List.mem_cons, List.not_mem_nil, or_false] at he
    have hx : S.cfg.inv d = false := by
      have : Moments.Code.nc1_xyz.act d = true := by fin_cases d <;> rfl
      rw [this] at hd; simpa using hd.symm
    rw [hx]
    rcases he with h | h | h | h | h | h | h | h <;> subst h <;> fin_cases d <;> simp [at_]
  · simp only [Moments.Code.dep, Deposit.nc1_yz, Deposit.first_yz, List.mem_cons, List.not_mem_nil, or_false] at he
    have hx : S.cfg.inv d = ![true, false, false] d := by
      have : Moments.Code.nc1_yz.act d = ![false, true, true] d := by fin_cases d <;> rfl
      rw [this] at hd
      revert hd
      fin_cases d <;> simp
    rw [hx]
    rcases he with h | h | h | h <;> subst h <;> fin_cases d <;> simp [at_]

theorem itemRho_spec {S : Setup} (hF : Fit S) (hS : Sound S) {prts : ℕ → ℕ → List Push.Prt} (hp : PrtsOk S prts) :
    ∃ rho, itemRho S prts = some rho ∧ ∀ r p, S.c.D.Has r p → ∀ n, Interior S.c n →
      rho r p (0, n) = rhoW S prts (fun d => S.c.off r p d + n d) := by
  have hok := hF.ok hS
  obtain ⟨τ, h1, h2⟩ := Moments.item_spec hok .rho hp
  refine ⟨τ, h1, fun r p hh n hn => ?_⟩
  rw [h2 0 (by rw [Moments.n_comps_eq]; simp [Moments.Moment.components]) r p hh n hn]
  unfold Moments.density Moments.Grid.global rhoW
  rw [Pic.sum_flatMap]
  refine congrArg List.sum (List.map_congr_left fun rp hrp => ?_)
  have hh' := Bndp.mem_allPatches.1 hrp
  rw [List.map_map]
  refine congrArg List.sum (List.map_congr_left fun q hq => ?_)
  simp only [Function.comp]
  have hz : (fun d => (q.x d + S.grid.c.off rp.1 rp.2 d * S.grid.P.dx d) / S.grid.P.dx d) = gz S rp q := by
    funext d
    have := (hF.dx d).ne'
    show (q.x d + S.c.off rp.1 rp.2 d * S.P.dx d) / S.P.dx d = _
    unfold gz; field_simp
  have hv : ∀ x, Moments.valOf .rho S.grid.P S.grid.kinds 0 { q with x := x } = Push.charge S.P q := by
    intro x
    simp [Moments.valOf, Moments.Moment.components, Moments.Quantity.of, Moments.weight, Push.charge, Setup.grid]
  rw [hz, hv]
  unfold gw
  rw [← Pic.sum_fieldOf _ 0 _ S.grid.around]
  · refine Finset.sum_congr rfl fun m _ => ?_
    rw [Moments.dep_share]
    unfold phi
    change (if S.grid.foldI S.code m = (fun d => S.c.off r p d + n d) then
      S.P.fnqs * Push.charge S.P q * S.code.share (gz S rp q) m else 0) = _
    split_ifs
    · rw [one_mul]
    · rw [zero_mul]
  · intro e he _
    have hq' := (hp rp.1 rp.2 hh' q hq).2.2
    unfold Moments.Grid.around
    rw [Reflecting.mem_box]
    intro d
    have ho := Moments.off_cases hok hh' d
    have hL := hF.pos d
    have hdx := hF.dx d
    obtain ⟨a, b⟩ := dep_at hS _ _ e he d
    have f1 : 0 ≤ ⌊gz S rp q d⌋ - S.c.off rp.1 rp.2 d ∧ ⌊gz S rp q d⌋ - S.c.off rp.1 rp.2 d < S.c.ldims d := by
      have e1 : ⌊gz S rp q d⌋ - S.c.off rp.1 rp.2 d = ⌊q.x d * (1 / S.P.dx d)⌋ := by
        unfold gz; rw [Int.floor_add_intCast]; ring
      rw [e1, mul_one_div]
      exact ⟨Int.floor_nonneg.2 (div_nonneg (hq' d).1 hdx.le), Int.floor_lt.2 ((div_lt_iff₀ hdx).2 (hq' d).2)⟩
    change _ ∧ at_ e d ≤ S.c.gdims d + 1
    change (S.c.off rp.1 rp.2 d = 0 ∨ S.c.ldims d ≤ S.c.off rp.1 rp.2 d) ∧ (S.c.off rp.1 rp.2 d + S.c.ldims d = S.c.gdims d ∨
      S.c.off rp.1 rp.2 d + 2 * S.c.ldims d ≤ S.c.gdims d) at ho
    cases hi : S.cfg.inv d
    · have := a hi; omega
    · have := b hi; omega

/-! ### Sorting and collisions -/

theorem rhoW_pre (S : Setup) {i : StepIn} (hi : KeepsCharge i) (prts : ℕ → ℕ → List Push.Prt) (x : I3) :
    rhoW S (fun r p => i.pre r p (prts r p)) x = rhoW S prts x := by
  unfold rhoW
  refine congrArg List.sum (List.map_congr_left fun rp _ => ?_)
  have hw : ∀ l : List Push.Prt, l.map (gw S x rp) = (l.map fun q => (q.x, q.qw, q.kind)).map
      fun t => gw S x rp ⟨t.1, 0, t.2.1, t.2.2⟩ := by
    intro l; rw [List.map_map]; rfl
  rw [hw, hw]
  exact ((hi rp.1 rp.2 (prts rp.1 rp.2)).map _).sum_eq

theorem pre_ok {S : Setup} {i : StepIn} (hi : KeepsCharge i) {prts : ℕ → ℕ → List Push.Prt} (hp : PrtsOk S prts) :
    PrtsOk S fun r p => i.pre r p (prts r p) := by
  intro r p hh q hq
  have h1 : (q.x, q.qw, q.kind) ∈ (i.pre r p (prts r p)).map fun q => (q.x, q.qw, q.kind) := List.mem_map.2 ⟨q, hq, rfl⟩
  rw [(hi r p (prts r p)).mem_iff, List.mem_map] at h1
  obtain ⟨q', hq', e⟩ := h1
  simp only [Prod.mk.injEq] at e
  have := hp r p hh q' hq'
  rwa [e.1, e.2.2] at this

/-! ### The push -/

/-- particles at most a cell away from their patch, and inside it in invariant directions -/
def Near1 (S : Setup) (prts : ℕ → ℕ → List Push.Prt) : Prop :=
  ∀ r p, S.c.D.Has r p → ∀ q ∈ prts r p, (q.kind < S.kinds.length ∧ S.P.q q.kind ≠ 0) ∧ ∀ d,
    (-S.P.dx d < q.x d ∧ q.x d < (S.c.ldims d + 1) * S.P.dx d) ∧
    (S.cfg.inv d = true → 0 ≤ q.x d ∧ q.x d < S.c.ldims d * S.P.dx d)

theorem push_near {S : Setup} (hF : Fit S) {prts : ℕ → ℕ → List Push.Prt} (flds : Glob ℝ) (hp : PrtsOk S prts) :
    Near1 S (pushPrts S.pic prts flds).1 := by
  intro r p hh q hq'
  obtain ⟨q0, h0, rfl⟩ := pushAll_mem _ _ _ _ _ hq'
  obtain ⟨k1, k2, hp⟩ := hp r p hh q0 h0
  refine ⟨⟨k1, k2⟩, fun d => ?_⟩
  obtain ⟨a, b⟩ := hp d
  change 0 ≤ q0.x d at a
  change q0.x d < S.c.ldims d * S.P.dx d at b
  have hd := hF.dx d
  have hx : (Push.pushOne S.cfg S.P (emOf (flds r p)) q0).1.x d =
      if S.cfg.inv d then q0.x d else q0.x d + 1 * S.P.dt * Push.calc_v (Push.pushOne S.cfg S.P (emOf (flds r p)) q0).1.u d :=
    rfl
  change (_ < (Push.pushOne S.cfg S.P (emOf (flds r p)) q0).1.x d ∧ (Push.pushOne S.cfg S.P (emOf (flds r p)) q0).1.x d < _) ∧
    (_ → 0 ≤ (Push.pushOne S.cfg S.P (emOf (flds r p)) q0).1.x d ∧ (Push.pushOne S.cfg S.P (emOf (flds r p)) q0).1.x d < _)
  rw [hx]
  cases hi : S.cfg.inv d
  · simp only [Bool.false_eq_true, if_false, false_implies, and_true]
    have hv := abs_lt.1 (Push.calc_v_lt (Push.pushOne S.cfg S.P (emOf (flds r p)) q0).1.u d)
    have hdt := hF.dt
    have hc := (hF.act d hi).2.1
    constructor <;> nlinarith
  · simp only [if_true]
    exact ⟨⟨by linarith, by linarith⟩, fun _ => ⟨a, b⟩⟩

/-- position of a near particle in cells -/
theorem near_floor {S : Setup} (hF : Fit S) {x : ℝ} {d : Fin 3} (h : -S.P.dx d < x ∧ x < (S.c.ldims d + 1) * S.P.dx d) :
    -1 ≤ ⌊x * (1 / S.P.dx d)⌋ ∧ ⌊x * (1 / S.P.dx d)⌋ ≤ S.c.ldims d := by
  have hd := hF.dx d
  rw [mul_one_div]
  constructor
  · refine Int.le_floor.2 ?_
    rw [le_div_iff₀ hd]; push_cast; linarith [h.1]
  · refine Int.lt_add_one_iff.1 (Int.floor_lt.2 ?_)
    rw [div_lt_iff₀ hd]; push_cast; exact h.2

theorem off_inv {S : Setup} (hF : Fit S) (hS : Sound S) {r p : ℕ} (hh : S.c.D.Has r p) {d : Fin 3} (hd : S.cfg.inv d = true) :
    S.c.off r p d = 0 := by
  have ho := Moments.off_cases (hF.ok hS) hh d
  have e := hF.inv d hd
  have : S.c.gdims d = 1 := by unfold Cfg.gdims; rw [e.1, e.2.1]; rfl
  change (S.c.off r p d = 0 ∨ S.c.ldims d ≤ S.c.off r p d) ∧ (S.c.off r p d + S.c.ldims d = S.c.gdims d ∨
      S.c.off r p d + 2 * S.c.ldims d ≤ S.c.gdims d) at ho
  omega

/-- the contribution of a near particle, in the frame of its patch -/
theorem gw_local {S : Setup} (hF : Fit S) (hS : Sound S) {r p : ℕ} (hh : S.c.D.Has r p) {q : Push.Prt} (x : I3) :
    gw S x (r, p) q = W (Deposit.code S.code.dep S.P.dx S.P.fnqs q.x (Push.charge S.P q)) 0
      (fun n => phi S x (fun d => S.c.off r p d + n d)) := by
  unfold gw Deposit.code
  have e : ∀ g, W (S.code.dep (gz S (r, p) q) (S.P.fnqs * Push.charge S.P q)) 0 g =
      W (moveBy (S.c.off r p) (S.code.dep (fun d => q.x d * (1 / S.P.dx d)) (S.P.fnqs * Push.charge S.P q))) 0 g := by
    intro g
    refine W_congr (fun i j k => ?_) g
    rw [fieldOf_moveBy]
    have e1 := Moments.dep_share S.code (gz S (r, p) q) (S.P.fnqs * Push.charge S.P q) ![i, j, k]
    have e2 := Moments.dep_share S.code (fun d => q.x d * (1 / S.P.dx d)) (S.P.fnqs * Push.charge S.P q)
      ![i - S.c.off r p 0, j - S.c.off r p 1, k - S.c.off r p 2]
    simp only [Matrix.cons_val_zero, Matrix.cons_val_one, Matrix.cons_val] at e1 e2
    rw [e1, e2, ← Moments.share_cov S.code (fun d => q.x d * (1 / S.P.dx d)) (S.c.off r p)]
    · congr 2
      funext d; fin_cases d <;> simp
    · intro d hd
      exact off_inv hF hS hh (by rw [hS.act] at hd; simpa using hd)
  rw [e, W_moveBy]
  congr 1
  funext n
  congr 1
  funext d; ring

/-! ### Continuity of the push -/

theorem W_sub_congr (J : List (Add ℝ)) (m : Fin 3) (g1 g2 h1 h2 : I3 → ℝ)
    (h : ∀ e ∈ J, e.m = m → g1 (at_ e) - g2 (at_ e) = h1 (at_ e) - h2 (at_ e)) : W J m g1 - W J m g2 = W J m h1 - W J m h2 := by
  induction J with
  | nil => simp [W]
  | cons e l ih =>
    have ih := ih fun e he => h e (List.mem_cons_of_mem _ he)
    simp only [W_cons]
    by_cases hm : e.m = m
    · have := h e List.mem_cons_self hm
      simp only [if_pos hm]
      linear_combination ih + e.v * this
    · simp only [if_neg hm]
      linear_combination ih

/-- the node of the domain a node of a patch belongs to -/
theorem ind_mir {S : Setup} (hF : Fit S) (hS : Sound S) {r p : ℕ} (hh : S.c.D.Has r p) (rad : Option (Radiation ℝ)) {x : I3}
    (hx : wrap S.c x = x) {n : I3} (hn : Stored S.c n) :
    Pic.ind S.c (r, p) x (mirW (wallLo S.c (S.bnd rad) r p) (wallHi S.c (S.bnd rad) r p) S.c.ldims n) =
      phi S x (fun d => S.c.off r p d + n d) := by
  have hcc : S.code.isCC = false := by rcases hS.nc with e | e <;> rw [e] <;> rfl
  have e : mirW (wallLo S.c (S.bnd rad) r p) (wallHi S.c (S.bnd rad) r p) S.c.ldims n = Moments.mir S.grid S.code r p n := by
    funext d
    have w1 : wallLo S.c (S.bnd rad) r p d = Moments.reflLo S.grid r p d := by
      rw [Bool.eq_iff_iff, Moments.reflLo_iff]
      unfold wallLo
      rw [Bool.and_eq_true, atLo_iff, show (S.bnd rad).fld_lo d = S.fld_lo d from rfl, (hF.walls d).1]
      rfl
    have w2 : wallHi S.c (S.bnd rad) r p d = Moments.reflHi S.grid r p d := by
      rw [Bool.eq_iff_iff, Moments.reflHi_iff]
      unfold wallHi
      rw [Bool.and_eq_true, atHi_iff, show (S.bnd rad).fld_hi d = S.fld_hi d from rfl, (hF.walls d).2]
      rfl
    unfold mirW Moments.mir
    rw [hcc, w1, w2]
    simp
    rfl
  have f : phys S.c r p (Moments.mir S.grid S.code r p n) = S.grid.foldI S.code (fun d => S.c.off r p d + n d) :=
    Moments.mir_foldI (hF.ok hS) hh hn
  unfold Pic.ind phi
  rw [e, hx, ← f]

theorem jin_stored {S : Setup} (hF : Fit S) {m : Fin 3} {n : I3} (hn : JIn S.c S.cfg.inv m n) :
    Stored S.c n ∧ (S.cfg.inv m = false → Stored S.c (Yee.shift n m 1)) := by
  have key : ∀ d, -S.c.ibn d ≤ n d ∧ n d < S.c.ldims d + S.c.ibn d := by
    intro d
    obtain ⟨a, b⟩ := hn d
    cases hi : S.cfg.inv d
    · have := (hF.act d hi).1; have := b hi; omega
    · have := hF.inv d hi; have := a hi; omega
  refine ⟨key, fun hm d => ?_⟩
  unfold Yee.shift
  split_ifs with hd
  · subst hd
    have := (hF.act d hm).1; have := (hn d).2 hm; omega
  · exact key d

theorem jin_near {S : Setup} (hF : Fit S) {m : Fin 3} {n : I3} (hn : JIn S.c S.cfg.inv m n) : BndFields.Near S.c n := by
  refine ⟨(jin_stored hF hn).1, fun d => ?_⟩
  obtain ⟨a, b⟩ := hn d
  cases hi : S.cfg.inv d
  · have := b hi; omega
  · have := hF.inv d hi; have := a hi; omega

/-- what was deposited on the patches is where the current of a step may be -/
def EvIn (S : Setup) (ev : ℕ → ℕ → List (Add ℝ)) : Prop := ∀ r p, S.c.D.Has r p → EvP (InJ S.c S.cfg.inv) (ev r p)

theorem Sound.evIn {S : Setup} (hS : Sound S) {prts : ℕ → ℕ → List Push.Prt} (flds : Glob ℝ) (hp : PrtsOk S prts) :
    EvIn S fun r p => (Push.pushAll S.cfg S.P (emOf (flds r p)) (prts r p)).2 :=
  fun r p hh => hS.jin (emOf (flds r p)) (prts r p) fun q hq d => (hp r p hh q hq).2.2 d

theorem depOf_near {S : Setup} (hF : Fit S) {ev : ℕ → ℕ → List (Add ℝ)} (hj : EvIn S ev) {r p : ℕ} (hh : S.c.D.Has r p)
    (m : Fin 3) (n : I3) (hne : depOf (ev r p) (JXI + m, n) ≠ 0) : BndFields.Near S.c n := by
  by_contra hno
  apply hne
  unfold depOf
  simp only [JXI, Nat.zero_add]
  rw [dif_pos m.2]
  unfold fieldOf
  apply List.sum_eq_zero
  intro v hv
  obtain ⟨e, he, rfl⟩ := List.mem_map.1 hv
  rw [if_neg]
  rintro ⟨-, h0, h1, h2⟩
  have := (eq_at e n).1 ⟨h0, h1, h2⟩
  exact hno (this ▸ jin_near hF (hj r p hh e he))

/-- the current of a step: what was deposited, against the test function pulled back through the folding -/
theorem current_W_ev {S : Setup} (hF : Fit S) (hS : Sound S) {ev : ℕ → ℕ → List (Add ℝ)} (hj : EvIn S ev)
    (rad : Option (Radiation ℝ)) (m : Fin 3) (y : I3) :
    currentB S.c S.g (S.bnd rad) (fun r p => depOf (ev r p)) m y = ∑ rp ∈ patches S.c.D,
      W (ev rp.1 rp.2) m
        (pullAll (wallLo S.c (S.bnd rad) rp.1 rp.2) (wallHi S.c (S.bnd rad) rp.1 rp.2) S.c.ldims m (Pic.ind S.c rp y)) := by
  have hb := hF.fitsB rad
  unfold currentB
  refine Finset.sum_congr rfl fun rp hrp => ?_
  have hh := mem_patches.1 hrp
  obtain ⟨F', hF'⟩ := foldJ_total (c := S.c) (g := S.g) (hF.supported rad) rp.1 rp.2 (depOf (ev rp.1 rp.2))
  rw [hF', Option.getD_some]
  have e1 : ∀ n ∈ storedCells S.c, (if phys S.c rp.1 rp.2 n = wrap S.c y then F' (JXI + m, n) else 0) =
      Pic.ind S.c rp y n * F' (JXI + m, n) := by
    intro n _; unfold Pic.ind; split_ifs <;> simp
  rw [Finset.sum_congr rfl e1, foldJ_weak hb hS.inv1 hS.inv2 hF' fun m n => depOf_near hF hj hh m n]
  have e2 : ∀ n, depOf (ev rp.1 rp.2) (JXI + m, n) = fieldOf (ev rp.1 rp.2) m (n 0) (n 1) (n 2) := by
    intro n
    unfold depOf
    simp only [JXI, Nat.zero_add]
    rw [dif_pos m.2]
  simp only [e2]
  exact Pic.sum_fieldOf _ m _ (storedCells S.c) fun e he hm' => mem_stored.2 (jin_stored hF (hj _ _ hh e he)).1

theorem current_W {S : Setup} (hF : Fit S) (hS : Sound S) {prts : ℕ → ℕ → List Push.Prt} (flds : Glob ℝ)
    (hp : PrtsOk S prts) (rad : Option (Radiation ℝ)) (m : Fin 3) (y : I3) :
    currentB S.c S.g (S.bnd rad) (pushPrts S.pic prts flds).2 m y = ∑ rp ∈ patches S.c.D,
      W (Push.pushAll S.cfg S.P (emOf (flds rp.1 rp.2)) (prts rp.1 rp.2)).2 m
        (pullAll (wallLo S.c (S.bnd rad) rp.1 rp.2) (wallHi S.c (S.bnd rad) rp.1 rp.2) S.c.ldims m (Pic.ind S.c rp y)) :=
  current_W_ev hF hS (hS.evIn flds hp) rad m y

/-- the difference of the current along its direction -/
theorem current_diff {S : Setup} (hF : Fit S) (hS : Sound S) {ev : ℕ → ℕ → List (Add ℝ)} (hj : EvIn S ev)
    (rad : Option (Radiation ℝ)) {x : I3} (hx : wrap S.c x = x) {m : Fin 3} (hm : S.cfg.inv m = false) :
    currentB S.c S.g (S.bnd rad) (fun r p => depOf (ev r p)) m x -
      currentB S.c S.g (S.bnd rad) (fun r p => depOf (ev r p)) m (Yee.shift x m (-1)) =
    ∑ rp ∈ patches S.c.D, (
      W (ev rp.1 rp.2) m (fun n => phi S x (fun d => S.c.off rp.1 rp.2 d + n d)) -
      W (ev rp.1 rp.2) m (fun n => phi S x (fun d => S.c.off rp.1 rp.2 d + Yee.shift n m 1 d))) := by
  have hc := current_W_ev hF hS hj rad m
  rw [hc, hc, ← Finset.sum_sub_distrib]
  refine Finset.sum_congr rfl fun rp hrp => ?_
  have hh := mem_patches.1 hrp
  refine W_sub_congr _ _ _ _ _ _ fun e he hem => ?_
  have hj := hj rp.1 rp.2 hh e he
  unfold InJ at hj
  rw [hem] at hj
  have e3 : Pic.ind S.c rp (Yee.shift x m (-1)) = fun n => Pic.ind S.c rp x (Yee.shift n m 1) := by
    funext n; rw [ind_shift]
  have hib := hF.valid.ibn
  rw [e3, pullAll_diff _ _ S.c S.cfg.inv (fun d hd => by have := (hF.act d hd).1; have := hib d; omega)
    (fun d hd => (hF.inv d hd).1) hm hj,
    ind_mir hF hS hh rad hx (jin_stored hF hj).1, ind_mir hF hS hh rad hx ((jin_stored hF hj).2 hm)]

/-- If on every patch charge density before, charge density after and deposited current satisfy the continuity equation, they
do so on the whole domain. -/
theorem ev_continuity {S : Setup} (hF : Fit S) (hS : Sound S) {ev : ℕ → ℕ → List (Add ℝ)} (hj : EvIn S ev)
    {old new : ℕ → ℕ → List Push.Prt} (hcont : ∀ r p, S.c.D.Has r p →
      Continuity S.g.act S.P.dx S.P.dt (fieldOf (Push.rho S.code.dep S.P (old r p)) 0)
        (fieldOf (Push.rho S.code.dep S.P (new r p)) 0) (fieldOf (ev r p)))
    (rad : Option (Radiation ℝ)) {x : I3} (hx : wrap S.c x = x) :
    rhoW S new x - rhoW S old x +
      S.P.dt * Yee.divE S.g.act S.P.dx (currentB S.c S.g (S.bnd rad) fun r p => depOf (ev r p)) x = 0 := by
  have hr : ∀ ps : ℕ → ℕ → List Push.Prt, rhoW S ps x = ∑ rp ∈ patches S.c.D, W (Push.rho S.code.dep S.P (ps rp.1 rp.2)) 0
      (fun n => phi S x (fun d => S.c.off rp.1 rp.2 d + n d)) := by
    intro ps
    rw [sum_patches]
    unfold rhoW
    refine congrArg List.sum (List.map_congr_left fun rp hrp => ?_)
    unfold Push.rho
    rw [W_flatMap]
    exact congrArg List.sum (List.map_congr_left fun q _ => gw_local hF hS (Bndp.mem_allPatches.1 hrp) x)
  have hw : ∀ rp ∈ patches S.c.D, _ := fun rp hrp =>
    weak (hcont rp.1 rp.2 (mem_patches.1 hrp)) (fun n => phi S x (fun d => S.c.off rp.1 rp.2 d + n d))
  have hz := Finset.sum_eq_zero hw
  refine Eq.trans ?_ hz
  have dB : ∀ m, Yee.dB S.g.act S.P.dx (currentB S.c S.g (S.bnd rad) (fun r p => depOf (ev r p)) m) m x =
      ∑ rp ∈ patches S.c.D, (if S.g.act m then (
      W (ev rp.1 rp.2) m (fun n => phi S x (fun d => S.c.off rp.1 rp.2 d + n d)) -
      W (ev rp.1 rp.2) m (fun n => phi S x (fun d => S.c.off rp.1 rp.2 d + Yee.shift n m 1 d))) / S.P.dx m else 0) := by
    intro m
    unfold Yee.dB
    cases hm : S.g.act m
    · simp
    · simp only [if_true]
      rw [current_diff hF hS hj rad hx (by simpa [Setup.g, Pic.Setup.g, Setup.pic, Fields.GridP.act] using hm), Finset.sum_div]
  unfold Yee.divE
  rw [dB, dB, dB, hr, hr, ← Finset.sum_sub_distrib, ← Finset.sum_add_distrib, ← Finset.sum_add_distrib, Finset.mul_sum,
    ← Finset.sum_add_distrib]

theorem push_continuity {S : Setup} (hF : Fit S) (hS : Sound S) {prts : ℕ → ℕ → List Push.Prt} (flds : Glob ℝ)
    (hp : PrtsOk S prts) (rad : Option (Radiation ℝ)) {x : I3} (hx : wrap S.c x = x) :
    rhoW S (pushPrts S.pic prts flds).1 x - rhoW S prts x +
      S.P.dt * Yee.divE S.g.act S.P.dx (currentB S.c S.g (S.bnd rad) (pushPrts S.pic prts flds).2) x = 0 :=
  ev_continuity hF hS (hS.evIn flds hp) (fun r p hh => hS.cont (emOf (flds r p)) (prts r p) fun q hq => (hp r p hh q hq).2.1)
    rad hx

end

end Psc.WallPic
