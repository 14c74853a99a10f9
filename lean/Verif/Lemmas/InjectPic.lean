import Verif.Lemmas.SerialWall
import Verif.Lemmas.WallStep
import Verif.Lemmas.BoundaryInjector
import Verif.Props.BoundaryInjector
import Verif.Spec.InjectPic

/-!
# Steps and runs with injection through the lower y boundary
-/

namespace Psc.WallPic.Inj

open Domain Ddc FieldStep BndFields Spec Pic BndInj Fields
open InjPic (Good injectPatch injectOne injectAll Injection population newcomers)

noncomputable section

/-- What is needed of single moves of particles: continuity, and where the current goes. -/
structure Single (S : Setup) : Prop where
  act1 : S.g.act 1 = true
  tent : ∀ x q i j k, fieldOf (S.code.dep x q) 0 i j k = tentRho S.g.act q x i j k
  one : ∀ (qw : ℝ) (v xm xp : R3 ℝ), (∀ d, |v d| < 1) → (∀ d, S.g.act d = true → |xp d - xm d| < 1) →
    Continuity S.g.act S.P.dx S.P.dt (tentRho S.g.act (S.P.fnqs * qw) xm) (tentRho S.g.act (S.P.fnqs * qw) xp)
      (fieldOf (S.cfg.current S.P qw v xm xp))
  inn : ∀ (qw : ℝ) (v xm xp : R3 ℝ), (∀ d, -1 ≤ xm d ∧ xm d < S.c.ldims d + 1) → (∀ d, -1 ≤ xp d ∧ xp d < S.c.ldims d + 1) →
    EvP (InJ S.c S.cfg.inv) (S.cfg.current S.P qw v xm xp)

theorem single {S : Setup} (h : Scheme S) (hF : Fit S) : Single S := by
  have hg := hF.good
  obtain ⟨hc, hd⟩ | ⟨hc, hd⟩ := h
  · have e : S.g.act = Spec.xyz := act_xyz (S := S.pic) (by show S.cfg.inv = _; rw [hc]; rfl)
    rw [e] at hg
    refine ⟨by rw [e]; rfl, ?_, ?_, ?_⟩
    · rw [e, hd]; exact Props.nc1_xyz_eq_tent
    · rw [e, hc]
      intro qw v xm xp _ hs i j k
      have := Props.C01_split_xyz_continuity S.P.fnqs S.P.dt S.P.dx hg.dt_pos.ne' (fun d => (hg.dx_pos d).ne') qw v xm xp
        (Props.oneCell_of_short hs) i j k
      rw [Props.nc1_xyz_eq_tent, Props.nc1_xyz_eq_tent] at this
      exact this
    · rw [hc]; exact fun qw v xm xp hm hp => move_xyz_in S.c qw v xm xp hm hp
  · have e : S.g.act = Spec.yz := act_yz (S := S.pic) (by show S.cfg.inv = _; rw [hc]; rfl)
    rw [e] at hg
    refine ⟨by rw [e]; rfl, ?_, ?_, ?_⟩
    · rw [e, hd]; exact Props.nc1_yz_eq_tent
    · rw [e, hc]
      intro qw v xm xp _ hs i j k
      have := Props.C03_var1_continuity S.P.fnqs S.P.dt S.P.dx hg.dt_pos.ne' (fun d => (hg.dx_pos d).ne') qw v xm xp
        (Props.oneCell_of_short hs) i j k
      rw [Props.nc1_yz_eq_tent, Props.nc1_yz_eq_tent] at this
      exact this
    · rw [hc]; exact fun qw v xm xp hm hp => move_yz_in S.c qw v xm xp (fun d _ => hm d) fun d _ => hp d

theorem rho_sum {S : Setup} (h1 : Single S) (ps : List Push.Prt) :
    fieldOf (Push.rho S.code.dep S.P ps) 0 = Push.sumRho (tentRho S.g.act) S.P ps := by
  rw [Push.rho_eq_sum]
  congr 1
  funext q x i j k; exact h1.tent x q i j k

theorem layer_cells {S : Setup} (hF : Fit S) {a : Inject} (ha : InLayer S.P.dx S.c.ldims a) (d : Fin 3) :
    -1 ≤ a.x d * (1 / S.P.dx d) ∧ a.x d * (1 / S.P.dx d) < S.c.ldims d + 1 := by
  have hd := hF.dx d
  have hL : (1 : ℝ) ≤ S.c.ldims d := by exact_mod_cast hF.pos d
  rw [mul_one_div, le_div_iff₀ hd, div_lt_iff₀ hd]
  obtain ⟨h0, h1, h2⟩ := ha
  have := hF.dx 0; have := hF.dx 1; have := hF.dx 2
  fin_cases d
  · exact ⟨by simp only [Fin.zero_eta] at *; linarith, by simp only [Fin.zero_eta] at *; nlinarith⟩
  · exact ⟨by simp only [Fin.mk_one] at *; linarith, by simp only [Fin.mk_one] at *; nlinarith⟩
  · exact ⟨by simp only [Fin.reduceFinMk] at *; linarith, by simp only [Fin.reduceFinMk] at *; nlinarith⟩

theorem attempts_ev {S : Setup} (hF : Fit S) (h1 : Single S) (l : List Inject) (hin : ∀ a ∈ l, InLayer S.P.dx S.c.ldims a)
    {r : List Push.Prt × List (Add ℝ)} (h : attempts S.cfg S.P S.c.ldims l = some r) : EvP (InJ S.c S.cfg.inv) r.2 := by
  have hc : S.P.dt ≤ S.P.dx 1 := hF.good.courant 1 h1.act1
  induction l generalizing r with
  | nil => simp only [attempts, Option.some.injEq] at h; subst h; intro e he; simp at he
  | cons a l ih =>
    simp only [attempts, Option.bind_eq_bind, Option.bind_eq_some_iff, Option.some.injEq] at h
    obtain ⟨x, h2, y, h3, rfl⟩ := h
    refine EvP.append ?_ (ih (fun a h => hin a (List.mem_cons_of_mem _ h)) h3)
    have ha := hin a List.mem_cons_self
    by_cases he : Enters S.P.dt a
    · rw [attempt_enter S.cfg hF.dt hF.dx hc hF.pos ha he, Option.some.injEq] at h2
      subst h2
      refine h1.inn _ _ _ _ (layer_cells hF ha) fun d => ?_
      have := moved_inside hF.dt hF.dx hc hF.pos ha he d
      have hd := hF.dx d
      rw [mul_one_div, le_div_iff₀ hd, div_lt_iff₀ hd]
      constructor <;> nlinarith
    · rw [attempt_skip S.cfg S.c.ldims he, Option.some.injEq] at h2
      subst h2
      intro e he; simp at he

/-- the particles of one injector that enter through a patch -/
def entr (S : Setup) (j : Injection) (r p : ℕ) : List Push.Prt := (entering S.P (population S j r p)).map (entered S.P)

/-- where they came from -/
def imag (S : Setup) (j : Injection) (r p : ℕ) : List Push.Prt := (entering S.P (population S j r p)).map (imaginary S.P)

/-- the current of one injector on a patch -/
def cur (S : Setup) (j : Injection) (r p : ℕ) : List (Add ℝ) := ((injectPatch S j r p).getD ([], [])).2

theorem population_layer {S : Setup} (hF : Fit S) {j : Injection} (hj : Good S j) (r p : ℕ) :
    ∀ a ∈ population S j r p, (InLayer S.P.dx S.c.ldims a ∧ a.kind = j.kind) ∧ S.c.off r p 1 = 0 := by
  intro a ha
  unfold population at ha
  split_ifs at ha with h
  · exact ⟨generated_inLayer S.P S.c.ldims j.kind (j.draws r p) hF.dx (hj.2 r p) a ha, h⟩
  · simp at ha

theorem injectPatch_spec {S : Setup} (hF : Fit S) (h1 : Single S) {j : Injection} (hj : Good S j) (r p : ℕ) :
    injectPatch S j r p = some (entr S j r p, cur S j r p) ∧
      Continuity S.g.act S.P.dx S.P.dt (fieldOf (Push.rho S.code.dep S.P (imag S j r p)) 0)
        (fieldOf (Push.rho S.code.dep S.P (entr S j r p)) 0) (fieldOf (cur S j r p)) ∧
      EvP (InJ S.c S.cfg.inv) (cur S j r p) := by
  have hpop := population_layer hF hj r p
  have key : ∃ J, injectPatch S j r p = some (entr S j r p, J) ∧
      Continuity S.g.act S.P.dx S.P.dt (fieldOf (Push.rho S.code.dep S.P (imag S j r p)) 0)
        (fieldOf (Push.rho S.code.dep S.P (entr S j r p)) 0) (fieldOf J) ∧ EvP (InJ S.c S.cfg.inv) J := by
    obtain ⟨J, hJ, hcont⟩ := attempts_spec S.cfg S.P S.c.ldims S.g.act (tentRho S.g.act) hF.dt hF.dx
      (hF.good.courant 1 h1.act1) hF.pos h1.one (population S j r p) (fun a ha => (hpop a ha).1.1)
      (fun a ha => (hpop a ha).1.2 ▸ hj.1.2)
    refine ⟨J, ?_, ?_, attempts_ev hF h1 _ (fun a ha => (hpop a ha).1.1) hJ⟩
    · unfold injectPatch inject
      by_cases hlo : S.c.off r p 1 = 0
      · rw [if_pos ((atLo_iff _ _ _ _).2 hlo)]
        rw [show generated S.P S.c.ldims j.kind (j.draws r p) = population S j r p by unfold population; rw [if_pos hlo]]
        exact hJ
      · rw [if_neg (fun h => hlo ((atLo_iff _ _ _ _).1 h))]
        have e : population S j r p = [] := by unfold population; rw [if_neg hlo]
        rw [e] at hJ
        simp only [attempts, Option.some.injEq, Prod.mk.injEq] at hJ
        rw [← hJ.2]
        unfold entr
        rw [e, ← hJ.1]
    · rw [rho_sum h1, rho_sum h1]; exact hcont
  obtain ⟨J, a, b, e⟩ := key
  have hc : cur S j r p = J := by unfold cur; rw [a]; rfl
  rw [hc]
  exact ⟨a, b, e⟩

theorem depOf_append (a b : List (Add ℝ)) (mn : ℕ × I3) : depOf (a ++ b) mn = depOf a mn + depOf b mn := by
  unfold depOf
  split_ifs
  · rw [fieldOf_append]
  · simp

theorem injectAll_eq {S : Setup} (hF : Fit S) (h1 : Single S) (l : List Injection) (hl : ∀ j ∈ l, Good S j)
    (P : ℕ → ℕ → List Push.Prt) (ev : ℕ → ℕ → List (Add ℝ)) :
    injectAll S l (P, fun r p => depOf (ev r p)) = some (fun r p => P r p ++ l.flatMap fun j => entr S j r p,
      fun r p => depOf (ev r p ++ l.flatMap fun j => cur S j r p)) := by
  induction l generalizing P ev with
  | nil => simp [injectAll]
  | cons j l ih =>
    have hj := fun r p => (injectPatch_spec hF h1 (hl j List.mem_cons_self) r p).1
    have e : injectOne S j (P, fun r p => depOf (ev r p)) =
        some (fun r p => P r p ++ entr S j r p, fun r p => depOf (ev r p ++ cur S j r p)) := by
      unfold injectOne
      simp only [hj, Option.isSome_some, implies_true, if_true, Option.getD_some]
      congr 2
      funext r p mn
      rw [depOf_append]
    simp only [injectAll, e, Option.bind_eq_bind, Option.bind_some]
    rw [ih (fun j hj => hl j (List.mem_cons_of_mem _ hj))]
    simp only [List.flatMap_cons, List.append_assoc]

theorem rho_append (dep : R3 ℝ → ℝ → List (Add ℝ)) (P : Push.Params) (a b : List Push.Prt) (i j k : ℤ) :
    fieldOf (Push.rho dep P (a ++ b)) 0 i j k = fieldOf (Push.rho dep P a) 0 i j k + fieldOf (Push.rho dep P b) 0 i j k := by
  unfold Push.rho
  rw [List.flatMap_append, fieldOf_append]

theorem continuity_append {S : Setup} {o1 n1 o2 n2 : List Push.Prt} {J1 J2 : List (Add ℝ)}
    (h1 : Continuity S.g.act S.P.dx S.P.dt (fieldOf (Push.rho S.code.dep S.P o1) 0) (fieldOf (Push.rho S.code.dep S.P n1) 0) (fieldOf J1))
    (h2 : Continuity S.g.act S.P.dx S.P.dt (fieldOf (Push.rho S.code.dep S.P o2) 0) (fieldOf (Push.rho S.code.dep S.P n2) 0) (fieldOf J2)) :
    Continuity S.g.act S.P.dx S.P.dt (fieldOf (Push.rho S.code.dep S.P (o1 ++ o2)) 0)
      (fieldOf (Push.rho S.code.dep S.P (n1 ++ n2)) 0) (fieldOf (J1 ++ J2)) := by
  intro i j k
  rw [rho_append, rho_append, Push.div_add']
  linear_combination h1 i j k + h2 i j k

theorem continuity_all {S : Setup} (hF : Fit S) (h1 : Single S) (l : List Injection) (hl : ∀ j ∈ l, Good S j) (r p : ℕ) :
    Continuity S.g.act S.P.dx S.P.dt (fieldOf (Push.rho S.code.dep S.P (l.flatMap fun j => imag S j r p)) 0)
      (fieldOf (Push.rho S.code.dep S.P (l.flatMap fun j => entr S j r p)) 0) (fieldOf (l.flatMap fun j => cur S j r p)) := by
  induction l with
  | nil => intro i j k; simp [Push.rho, fieldOf_nil, Spec.div]
  | cons j l ih =>
    simp only [List.flatMap_cons]
    exact continuity_append (injectPatch_spec hF h1 (hl j List.mem_cons_self) r p).2.1
      (ih fun j hj => hl j (List.mem_cons_of_mem _ hj))

/-- the particles that entered are in their patch and of a good species -/
theorem entr_ok {S : Setup} (hF : Fit S) (h1 : Single S) {j : Injection} (hj : Good S j) (r p : ℕ) :
    ∀ q ∈ entr S j r p, (q.kind < S.kinds.length ∧ S.P.q q.kind ≠ 0) ∧ (∀ d, 0 ≤ q.x d ∧ q.x d < S.c.ldims d * S.P.dx d) ∧
      q.x 1 < S.P.dx 1 ∧ S.c.off r p 1 = 0 := by
  intro q hq
  unfold entr entering at hq
  obtain ⟨a, ha, rfl⟩ := List.mem_map.1 hq
  obtain ⟨ha, he⟩ := List.mem_filter.1 ha
  have he : Enters S.P.dt a := by simpa using he
  obtain ⟨⟨hlay, hk⟩, ho⟩ := population_layer hF hj r p a ha
  have hc : S.P.dt ≤ S.P.dx 1 := hF.good.courant 1 h1.act1
  refine ⟨by show (a.kind < _ ∧ S.P.q a.kind ≠ 0); rw [hk]; exact hj.1, moved_inside hF.dt hF.dx hc hF.pos hlay he, ?_, ho⟩
  have hv := abs_lt.1 (vy_lt a.u)
  have := hlay.2.1
  have := hF.dt
  show movedTo S.P.dt a 1 < _
  simp only [movedTo, Matrix.cons_val_one, Matrix.cons_val]
  nlinarith [hv.2]

theorem rhoW_append (S : Setup) (a b : ℕ → ℕ → List Push.Prt) (x : I3) :
    rhoW S (fun r p => a r p ++ b r p) x = rhoW S a x + rhoW S b x := by
  unfold rhoW
  simp only [List.map_append, List.sum_append]
  rw [List.sum_map_add]

/-- the imaginary particles contribute nothing above the boundary -/
theorem rhoW_imag {S : Setup} (hF : Fit S) (hS : Sound S) (hlo : S.fld_lo 1 = .open) (l : List Injection)
    (hl : ∀ j ∈ l, Good S j) {x : I3} (hx : 1 ≤ x 1) : rhoW S (fun r p => l.flatMap fun j => imag S j r p) x = 0 := by
  unfold rhoW
  apply List.sum_eq_zero
  intro v hv
  obtain ⟨⟨r, p⟩, -, rfl⟩ := List.mem_map.1 hv
  apply List.sum_eq_zero
  intro v hv
  obtain ⟨q, hq, rfl⟩ := List.mem_map.1 hv
  obtain ⟨j, hj, hq⟩ := List.mem_flatMap.1 hq
  unfold imag entering at hq
  obtain ⟨a, ha, rfl⟩ := List.mem_map.1 hq
  obtain ⟨⟨hlay, -⟩, ho⟩ := population_layer hF (hl j hj) r p a (List.mem_filter.1 ha).1
  have hi := hS.inv1
  have hnp : S.c.D.bc 1 = false ∧ (S.prt_lo 1 == .reflecting) = false := by
    rcases (hF.act 1 hi).2.2 with ⟨-, -, b, -⟩ | ⟨b, s, -⟩
    · rw [hlo] at b; cases b
    · refine ⟨b, ?_⟩
      rw [hlo] at s
      generalize S.prt_lo 1 = pb at *
      cases s <;> decide
  unfold gw W
  apply List.sum_eq_zero
  intro v hv
  obtain ⟨e, he, rfl⟩ := List.mem_map.1 hv
  have hat := (dep_at hS _ _ e he 1).1 hi
  have hfl : ⌊gz S (r, p) (imaginary S.P a) 1⌋ < 0 := by
    rw [Int.floor_lt]
    unfold gz
    have := hlay.2.1.2
    have hd := hF.dx 1
    change a.x 1 * (1 / S.P.dx 1) + (S.c.off r p 1 : ℝ) < _
    rw [ho]
    push_cast
    rw [add_zero, mul_one_div, div_lt_iff₀ hd]
    linarith
  have : phi S x (at_ e) = 0 := by
    unfold phi
    rw [if_neg]
    intro hfx
    rw [foldI_eq hS] at hfx
    have hfx := congrFun hfx 1
    have g := hF.gdims 1 hi
    unfold fold1 Reflecting.mirrorNC at hfx
    rw [hnp.1, hnp.2] at hfx
    simp only [Bool.false_eq_true, if_false, false_and] at hfx
    split_ifs at hfx <;> omega
  rw [this]
  split_ifs <;> simp

/-- no particle is put exactly on an upper reflecting wall in this step -/
def OffWall1 (S : Setup) (i : InjPic.StepIn) (s : State) : Prop := WallPic.OffWall1 S i.base s

theorem new_near {S : Setup} (hF : Fit S) (h1 : Single S) (l : List Injection) (hl : ∀ j ∈ l, Good S j)
    {P : ℕ → ℕ → List Push.Prt} (hP : Near1 S P) : Near1 S fun r p => P r p ++ l.flatMap fun j => entr S j r p := by
  intro r p hh q hq
  rcases List.mem_append.1 hq with hq | hq
  · exact hP r p hh q hq
  · obtain ⟨j, hj, hq⟩ := List.mem_flatMap.1 hq
    obtain ⟨a, b, -⟩ := entr_ok hF h1 (hl j hj) r p q hq
    refine ⟨a, fun d => ⟨?_, fun _ => b d⟩⟩
    have := hF.dx d
    have := b d
    constructor <;> linarith

theorem new_offWall {S : Setup} (hF : Fit S) (h1 : Single S) (l : List Injection) (hl : ∀ j ∈ l, Good S j)
    {P : ℕ → ℕ → List Push.Prt} (hP : NoneOnWall S P) : NoneOnWall S fun r p => P r p ++ l.flatMap fun j => entr S j r p := by
  intro r p hh q hq
  rcases List.mem_append.1 hq with hq | hq
  · exact hP r p hh q hq
  · obtain ⟨j, hj, hq⟩ := List.mem_flatMap.1 hq
    obtain ⟨-, b, -⟩ := entr_ok hF h1 (hl j hj) r p q hq
    intro d _
    have o := (off_range (hF.fitsB none) hh d).2
    have o' : (S.c.off r p d : ℝ) + S.c.ldims d ≤ S.c.gdims d := by exact_mod_cast o
    have := hF.dx d
    have := (b d).2
    nlinarith

theorem step_spec {S : Setup} (hF : Fit S) (hS : Sound S) (h1 : Single S) (i : InjPic.StepIn) (hi : InjPic.StepOk S i) (s : State)
    (hf : FieldsAgree S s.flds) (hp : PrtsOk S s.prts) :
    ∃ s', InjPic.step S i s = some s' ∧ FieldsAgree S s'.flds ∧ PrtsOk S s'.prts ∧
      (∀ r p, S.c.D.Has r p → ∀ n, Interior S.c n → InsideUp S.c S.g (fun d => S.c.off r p d + n d) →
        Yee.divH S.g.act S.g.dx (Props.Hof (toFlds (s'.flds r p))) n = Yee.divH S.g.act S.g.dx (Props.Hof (toFlds (s.flds r p))) n) ∧
      (OffWall1 S i s → S.fld_lo 1 = .open → ∀ r p, S.c.D.Has r p → ∀ n, Interior S.c n →
        ((∀ d, S.cfg.inv d = false → S.fld_lo d = .open → 1 ≤ S.c.off r p d + n d) →
          rhoW S s'.prts (fun d => S.c.off r p d + n d) - rhoW S s.prts (fun d => S.c.off r p d + n d) +
            S.P.dt * Pic.divj S.pic (s'.flds r p) n = 0) ∧
        (Inside S.c S.g (fun d => S.c.off r p d + n d) →
          div_nc S.g (s'.flds r p) n - rhoW S s'.prts (fun d => S.c.off r p d + n d) =
          div_nc S.g (s.flds r p) n - rhoW S s.prts (fun d => S.c.off r p d + n d))) := by
  obtain ⟨E, H, pE, pH, hE, hH⟩ := hf.get
  have hp1 := pre_ok hi.1 hp
  set P0 := fun r p => i.base.pre r p (s.prts r p) with hP0
  set ev : ℕ → ℕ → List (Add ℝ) := fun r p => (Push.pushAll S.cfg S.P (emOf (s.flds r p)) (P0 r p)).2 ++
    i.inj.flatMap fun j => cur S j r p with hev
  have hinj := injectAll_eq hF h1 i.inj hi.2 (pushPrts S.pic P0 s.flds).1
    fun r p => (Push.pushAll S.cfg S.P (emOf (s.flds r p)) (P0 r p)).2
  have hj : EvIn S ev := by
    intro r p hh
    refine (hS.evIn s.flds hp1 r p hh).append fun e he => ?_
    obtain ⟨j, hj, he⟩ := List.mem_flatMap.1 he
    exact (injectPatch_spec hF h1 (hi.2 j hj) r p).2.2 e he
  obtain ⟨T, hT, hTok, hTrho⟩ := exchange_spec hF hS (new_near hF h1 i.inj hi.2 (push_near hF s.flds hp1))
  have hb1 := hF.fitsB i.base.rad1
  have hb2 := hF.fitsB i.base.rad2
  obtain ⟨τ, hs⟩ := fieldStepB_total (g := S.g) hF.valid (hF.supported i.base.rad1) (hF.supported i.base.rad2)
    (fun r p => depOf (ev r p)) s.flds
  obtain ⟨E', H1, H', pE', pH', hE', hH', hg⟩ := stepB_spec hb1 hb2 hs pE pH hE hH
  refine ⟨⟨T, τ⟩, ?_, FieldsAgree.mk pE' pH' hE' hH', hTok, ?_, fun how hlo r p hh n hn => ?_⟩
  · unfold InjPic.step
    simp only [Option.bind_eq_bind]
    rw [show injectAll S i.inj (pushPrts S.pic (fun r p => i.base.pre r p (s.prts r p)) s.flds) = _ from hinj, Option.bind_some]
    simp only [hT, Option.bind_some]
    rw [show fieldStepB S.c S.g _ _ _ s.flds = some τ from hs]
    rfl
  · intro r p hh n hn hx
    unfold Props.Hof
    rw [divH_in hb1 hH' hh hn hx, divH_in hb1 hH hh hn hx,
      divH_good hb1 hh hn hx (fun n hn hd d hgd => ((hg r p hh n hn hd d).2 hgd).2), divH_faraday,
      divH_good hb1 hh hn hx (fun n hn hd d hgd => ((hg r p hh n hn hd d).2 hgd).1), divH_faraday]
  · obtain ⟨hw, hlt⟩ := wrap_interior hF hh hn
    have hc := ev_continuity hF hS hj (old := fun r p => P0 r p ++ i.inj.flatMap fun j => imag S j r p)
      (new := fun r p => (pushPrts S.pic P0 s.flds).1 r p ++ i.inj.flatMap fun j => entr S j r p)
      (fun r p hh => continuity_append (hS.cont (emOf (s.flds r p)) (P0 r p) fun q hq => (hp1 r p hh q hq).2.1)
        (continuity_all hF h1 i.inj hi.2 r p)) i.base.rad1 hw
    rw [rhoW_append S P0, hP0, rhoW_pre S hi.1] at hc
    have him := fun hx : (∀ d, S.cfg.inv d = false → S.fld_lo d = .open → 1 ≤ S.c.off r p d + n d) =>
      rhoW_imag hF hS hlo i.inj hi.2 (x := fun d => S.c.off r p d + n d) (hx 1 hS.inv1 hlo)
    have he := fun hx => (hTrho _ hlt hx).2 (new_offWall hF h1 i.inj hi.2 how)
    constructor
    · intro hx
      simp only
      rw [he hx, divj_ev hF hS hj hs hh hn hx]
      rw [him hx] at hc
      linear_combination hc
    · intro hx
      have hop : ∀ d, S.cfg.inv d = false → S.fld_lo d = .open → 1 ≤ S.c.off r p d + n d := by
        intro d hd ho
        refine hx d hd ?_
        rcases (hF.act d hd).2.2 with ⟨-, -, b, -⟩ | ⟨b, -⟩
        · rw [ho] at b; cases b
        · exact b
      simp only
      rw [he hop, div_nc_in hb1 hE' hh hn hx, div_nc_in hb1 hE hh hn hx,
        divE_good hb1 hh hn hx (fun n hn hd d hgd => (hg r p hh n hn hd d).1 hgd), divE_ampere]
      rw [him hop] at hc
      change _ - S.P.dt * Yee.divE S.g.act S.P.dx _ _ - _ = _
      linear_combination -hc

/-- what becomes of a particle in the exchange, seen from the whole domain -/
def fateM (S : Setup) (rp : ℕ × ℕ) (b : Bndp.Prt ℝ (ℝ × ℕ)) : Multiset Push.Prt :=
  match Bndp.process1 (S.pic.ex.patch rp.1 rp.2) b with
  | some (.keep b') => {globalPrt S.pic rp (ofB b')}
  | some (.send dir b') => match S.c.D.nei rp.1 rp.2 dir with
    | some rp' => {globalPrt S.pic rp' (ofB b')}
    | none => 0
  | _ => 0

theorem ex_ok {S : Setup} (hF : Fit S) : ∀ d, 0 < S.pic.ex.ldims d ∧ 0 < S.pic.ex.dx d := fun d => ⟨hF.pos d, hF.dx d⟩

theorem process_inside {S : Setup} (hF : Fit S) (r p : ℕ) {b : Bndp.Prt ℝ (ℝ × ℕ)} (hb : Bndp.Inside (S.pic.ex.patch r p) b.x) :
    Bndp.process1 (S.pic.ex.patch r p) b = some (.keep b) := by
  have hok : (S.pic.ex.patch r p).Ok := ex_ok hF
  unfold Bndp.process1
  simp only
  rw [if_pos ((Bndp.valid_iff hok b.x).2 hb)]

theorem fateM_inside {S : Setup} (hF : Fit S) (rp : ℕ × ℕ) {b : Bndp.Prt ℝ (ℝ × ℕ)} (hb : Bndp.Inside (S.pic.ex.patch rp.1 rp.2) b.x) :
    fateM S rp b = {globalPrt S.pic rp (ofB b)} := by
  unfold fateM
  rw [process_inside hF rp.1 rp.2 hb]

/-- the exchange treats every particle on its own -/
theorem exchange_each {S : Setup} (hF : Fit S) {prts : ℕ → ℕ → List Push.Prt} (hn : Near1 S prts) {T : ℕ → ℕ → List Push.Prt}
    (hx : exchangePrts S.pic prts = some T) :
    (globalPrts S.pic T : Multiset Push.Prt) =
      ((Bndp.allPatches S.c.D).map fun rp => ((prts rp.1 rp.2).map fun q => fateM S rp (toB q)).sum).sum := by
  set g := S.pic.ex with hg
  set pB : ℕ → ℕ → List (Bndp.Prt ℝ (ℝ × ℕ)) := fun r p => (prts r p).map toB with hpB
  have hD : g.D.Valid := hF.valid.valid
  have hok : ∀ d, 0 < g.ldims d ∧ 0 < g.dx d := fun d => ⟨hF.pos d, hF.dx d⟩
  have mem : ∀ r p (b : Bndp.Prt ℝ (ℝ × ℕ)), b ∈ pB r p → ∃ q ∈ prts r p, toB q = b := fun r p b hb => List.mem_map.1 hb
  have near : Bndp.AllNear g pB := by
    intro r p hh b hb d
    obtain ⟨q, hq', rfl⟩ := mem r p b hb
    obtain ⟨⟨a1, a2⟩, a3⟩ := (hn r p hh q hq').2 d
    have hdx := hF.dx d
    have hL : (1 : ℝ) ≤ S.c.ldims d := by exact_mod_cast hF.pos d
    change -(S.c.ldims d * S.P.dx d) < q.x d ∧ q.x d < 2 * (S.c.ldims d * S.P.dx d)
    constructor <;> nlinarith
  have hper : ∀ d, g.prt_lo d = .periodic ∨ g.prt_hi d = .periodic → g.D.bc d = true ∨
      ∀ r p, g.D.Has r p → ∀ q ∈ pB r p, 0 ≤ q.x d ∧ q.x d < (g.patch r p).size d := by
    intro d hp
    cases hd : S.cfg.inv d
    · rcases (hF.act d hd).2.2 with ⟨a, -⟩ | ⟨-, a, b⟩
      · exact Or.inl a
      · have s : ∀ p f, Side d p f → p ≠ .periodic := by intro p f hs; cases hs <;> decide
        rcases hp with hp | hp
        · exact absurd hp (s _ _ a)
        · exact absurd hp (s _ _ b)
    · refine Or.inr fun r p hh b hb => ?_
      obtain ⟨q, hq', rfl⟩ := mem r p b hb
      exact ((hn r p hh q hq').2 d).2 hd
  obtain ⟨T', hT, hin, -⟩ := Props.C19_exchange_conserves_partial g hD hok pB near hper
  have hex : exchangePrts S.pic prts = some fun r p => (((Bndp.exchange g pB r).getD fun _ => []) p).map ofB := by
    unfold exchangePrts
    rw [if_pos]
    intro r hr
    show (Bndp.exchange g pB r).isSome = true
    rw [hT r (List.mem_range.1 hr)]
    rfl
  have key := Bndp.exchange_weight g hD hok pB near hper T' hT (fateM S) ?_ ?_ ?_
  · rw [hex, Option.some.injEq] at hx
    subst hx
    rw [show (fun rp : ℕ × ℕ => ((prts rp.1 rp.2).map fun q => fateM S rp (toB q)).sum) =
      fun rp => ((pB rp.1 rp.2).map (fateM S rp)).sum by funext rp; rw [hpB, List.map_map]; rfl]
    refine Eq.trans ?_ key
    unfold globalPrts
    rw [Bndp.coe_flatMap]
    refine congrArg List.sum (List.map_congr_left fun rp hrp => ?_)
    have hh := Bndp.mem_allPatches.1 hrp
    have e : ((Bndp.exchange g pB rp.1).getD fun _ => []) = T' rp.1 := by rw [hT rp.1 hh.1]; rfl
    simp only [e]
    have hi := hin rp.1 rp.2 hh
    revert hi
    generalize T' rp.1 rp.2 = l
    intro hi
    induction l with
    | nil => simp
    | cons b l ih =>
      simp only [List.map_cons, List.sum_cons]
      rw [← ih fun q hq => hi q (List.mem_cons_of_mem _ hq), fateM_inside hF rp (hi b List.mem_cons_self)]
      rw [← Multiset.cons_coe, Multiset.singleton_add]
  · intro r p hh b hb hl
    unfold fateM
    rw [Bndp.process1_eq (g := S.pic.ex.patch r p) hok (near r p hh b hb)]
    unfold Bndp.fate
    rw [if_pos hl]
  · intro r p hh b hb b' hb'
    have hx' := fate_in (g := g.patch r p) hok (near r p hh b hb) (dir := 0) (Or.inr hb')
    rw [fateM_inside hF (r, p) hx']
    unfold fateM
    rw [hb']
  · intro r p hh b hb dir b' rp' hb' hnei
    have hx' := fate_in (g := g.patch r p) hok (near r p hh b hb) (Or.inl hb')
    rw [fateM_inside hF rp' hx']
    unfold fateM
    rw [hb']
    simp only
    rw [show S.c.D.nei r p dir = some rp' from hnei]

/-- the particles after a step: those of the step without injection, and the newcomers -/
theorem population_spec {S : Setup} (hF : Fit S) (hS : Sound S) (h1 : Single S) (i : InjPic.StepIn) (hi : InjPic.StepOk S i)
    (s : State) (hf : FieldsAgree S s.flds) (hp : PrtsOk S s.prts) :
    ∃ s0 s', WallPic.step S i.base s = some s0 ∧ InjPic.step S i s = some s' ∧
      (globalPrts S.pic s'.prts).Perm (globalPrts S.pic s0.prts ++ globalPrts S.pic (newcomers S i)) := by
  have hp1 := pre_ok hi.1 hp
  obtain ⟨s0, e0, -⟩ := WallPic.step_spec hF hS i.base hi.1 s hf hp
  obtain ⟨s', e', -⟩ := step_spec hF hS h1 i hi s hf hp
  refine ⟨s0, s', e0, e', ?_⟩
  set P0 := fun r p => i.base.pre r p (s.prts r p) with hP0
  have hinj := injectAll_eq hF h1 i.inj hi.2 (pushPrts S.pic P0 s.flds).1
    fun r p => (Push.pushAll S.cfg S.P (emOf (s.flds r p)) (P0 r p)).2
  have n0 := push_near hF s.flds hp1
  have n1 := new_near hF h1 i.inj hi.2 n0
  have x0 : exchangePrts S.pic (pushPrts S.pic P0 s.flds).1 = some s0.prts := by
    unfold WallPic.step at e0
    simp only [Option.bind_eq_bind, Option.bind_eq_some_iff] at e0
    obtain ⟨T, a, τ, -, b⟩ := e0
    obtain rfl := Option.some.inj b
    exact a
  have x1 : exchangePrts S.pic (fun r p => (pushPrts S.pic P0 s.flds).1 r p ++ i.inj.flatMap fun j => entr S j r p) = some s'.prts := by
    unfold InjPic.step at e'
    simp only [Option.bind_eq_bind] at e'
    rw [show injectAll S i.inj (pushPrts S.pic (fun r p => i.base.pre r p (s.prts r p)) s.flds) = _ from hinj, Option.bind_some] at e'
    simp only [Option.bind_eq_some_iff] at e'
    obtain ⟨T, a, τ, -, b⟩ := e'
    obtain rfl := Option.some.inj b
    exact a
  rw [← Multiset.coe_eq_coe, ← Multiset.coe_add, exchange_each hF n1 x1, exchange_each hF n0 x0]
  unfold globalPrts
  rw [Bndp.coe_flatMap, show S.pic.c = S.c from rfl, ← List.sum_map_add]
  refine congrArg List.sum (List.map_congr_left fun rp hrp => ?_)
  rw [List.map_append, List.sum_append]
  refine congrArg _ ?_
  have hin : ∀ q ∈ newcomers S i rp.1 rp.2, Bndp.Inside (S.pic.ex.patch rp.1 rp.2) (toB q).x := by
    intro q hq
    obtain ⟨j, hj, hq⟩ := List.mem_flatMap.1 hq
    exact (entr_ok hF h1 (hi.2 j hj) rp.1 rp.2 q hq).2.1
  change ((newcomers S i rp.1 rp.2).map _).sum = _
  revert hin
  generalize newcomers S i rp.1 rp.2 = l
  intro hin
  induction l with
  | nil => simp
  | cons b l ih =>
    simp only [List.map_cons, List.sum_cons]
    rw [ih fun q hq => hin q (List.mem_cons_of_mem _ hq), fateM_inside hF rp (hin b List.mem_cons_self)]
    rw [← Multiset.cons_coe, Multiset.singleton_add]
    rfl

theorem run_spec {S : Setup} (hF : Fit S) (hS : Sound S) (h1 : Single S) (l : List InjPic.StepIn) (hl : ∀ i ∈ l, InjPic.StepOk S i)
    (s : Pic.State) (hf : FieldsAgree S s.flds) (hp : PrtsOk S s.prts) :
    ∃ s', InjPic.run S l s = some s' ∧ FieldsAgree S s'.flds ∧ PrtsOk S s'.prts ∧
      (∀ r p, S.c.D.Has r p → ∀ n, Interior S.c n → InsideUp S.c S.g (fun d => S.c.off r p d + n d) →
        Yee.divH S.g.act S.g.dx (Props.Hof (toFlds (s'.flds r p))) n = Yee.divH S.g.act S.g.dx (Props.Hof (toFlds (s.flds r p))) n) ∧
      (InjPic.OffWall S l s → S.fld_lo 1 = .open → ∀ r p, S.c.D.Has r p → ∀ n, Interior S.c n →
        Inside S.c S.g (fun d => S.c.off r p d + n d) →
          div_nc S.g (s'.flds r p) n - rhoW S s'.prts (fun d => S.c.off r p d + n d) =
          div_nc S.g (s.flds r p) n - rhoW S s.prts (fun d => S.c.off r p d + n d)) := by
  induction l generalizing s with
  | nil => exact ⟨s, rfl, hf, hp, fun _ _ _ _ _ _ => rfl, fun _ _ _ _ _ _ _ _ => rfl⟩
  | cons i l ih =>
    obtain ⟨s1, e1, f1, p1, b1, g1⟩ := step_spec hF hS h1 i (hl i List.mem_cons_self) s hf hp
    obtain ⟨s2, e2, f2, p2, b2, g2⟩ := ih (fun i hi => hl i (List.mem_cons_of_mem _ hi)) s1 f1 p1
    refine ⟨s2, ?_, f2, p2, fun r p hh n hn hx => ?_, fun how hlo r p hh n hn hx => ?_⟩
    · simp only [InjPic.run, Option.bind_eq_bind, e1, Option.bind_some]; exact e2
    · rw [b2 r p hh n hn hx, b1 r p hh n hn hx]
    · rw [g2 (how.2 s1 e1) hlo r p hh n hn hx, (g1 how.1 hlo r p hh n hn).2 hx]

theorem run_append (S : Setup) (l l' : List InjPic.StepIn) (s : Pic.State) :
    InjPic.run S (l ++ l') s = (InjPic.run S l s).bind (InjPic.run S l') := by
  induction l generalizing s with
  | nil => rfl
  | cons i l ih =>
    simp only [List.cons_append, InjPic.run, Option.bind_eq_bind]
    cases InjPic.step S i s <;> simp [ih]

theorem offWall_append {S : Setup} {l l' : List InjPic.StepIn} {s s1 : Pic.State} (h : InjPic.OffWall S (l ++ l') s)
    (e : InjPic.run S l s = some s1) : InjPic.OffWall S l s ∧ InjPic.OffWall S l' s1 := by
  induction l generalizing s with
  | nil =>
    simp only [InjPic.run, Option.some.injEq] at e
    subst e
    exact ⟨trivial, h⟩
  | cons i l ih =>
    simp only [InjPic.run, Option.bind_eq_bind, Option.bind_eq_some_iff] at e
    obtain ⟨s2, e1, e2⟩ := e
    refine ⟨⟨h.1, fun s' hs' => ?_⟩, (ih (h.2 s2 e1) e2).2⟩
    rw [e1, Option.some.injEq] at hs'
    subst hs'
    exact (ih (h.2 s2 e1) e2).1

/-- the checks around a step -/
theorem checked_spec {S : Setup} (hF : Fit S) (hS : Sound S) (h1 : Single S) (hlo : S.fld_lo 1 = .open) (i : InjPic.StepIn)
    (hi : InjPic.StepOk S i) (s : Pic.State) (hf : FieldsAgree S s.flds) (hp : PrtsOk S s.prts) (how : OffWall1 S i s) :
    ∃ s' ge, InjPic.step S i s = some s' ∧ InjPic.checkedStep S i s = some (s', 0, ge) ∧
      ∀ M, 0 ≤ M → GaussWithin S M s' → ge ≤ M := by
  obtain ⟨s', e, f', p', -, g'⟩ := step_spec hF hS h1 i hi s hf hp
  obtain ⟨rm, m1, m2⟩ := itemRho_spec hF hS (pre_ok hi.1 hp)
  obtain ⟨rp, p1, p2⟩ := itemRho_spec hF hS p'
  have hd := ne_of_gt hF.dt
  refine ⟨s', Pic.max_err S.pic fun r p n => div_nc S.g (s'.flds r p) n - replaceLo S (fun b => b == .conducting || b == .open) r p
    (fun n => rp r p (0, n)) (fun n => div_nc S.g (s'.flds r p) n) n, e, ?_, ?_⟩
  · unfold InjPic.checkedStep
    simp only [Option.bind_eq_bind, m1, e, p1, Option.bind_some]
    refine congrArg some (Prod.ext rfl (Prod.ext ?_ rfl))
    refine le_antisymm (max_err_le.2 ⟨le_refl _, fun r p hh n hn => ?_⟩) max_err_nonneg
    have hn : Interior S.c n := hn
    have hh : S.c.D.Has r p := hh
    refine le_of_eq (abs_eq_zero.2 ?_)
    simp only [replaceLo_val]
    split_ifs with hr
    · field_simp
      ring
    · rw [p2 r p hh n hn, m2 r p hh n hn, rhoW_pre S hi.1]
      refine ((g' how hlo r p hh n hn).1 fun d hd ho => ?_)
      by_contra hlt
      apply hr
      have o := off_range (hF.fitsB none) hh d
      have := hn d
      exact ⟨d, (atLo_iff _ _ _ _).2 (by omega), by rw [ho]; rfl, by omega⟩
  · rintro M h0 ⟨rho, r1, r2⟩
    rw [p1] at r1
    obtain rfl := Option.some.inj r1
    refine max_err_le.2 ⟨h0, fun r p hh n hn => ?_⟩
    have hn : Interior S.c n := hn
    have hh : S.c.D.Has r p := hh
    simp only [replaceLo_val]
    split_ifs with hr
    · rw [sub_self, abs_zero]; exact h0
    · refine r2 r p hh n hn fun d hd hb => ?_
      by_contra hlt
      change ¬ 1 ≤ S.c.off r p d + n d at hlt
      apply hr
      have o := off_range (hF.fitsB none) hh d
      have := hn d
      refine ⟨d, (atLo_iff _ _ _ _).2 (by omega), ?_, by omega⟩
      rcases (hF.act d hd).2.2 with ⟨b, -⟩ | ⟨-, b, -⟩
      · rw [hb] at b; cases b
      · generalize S.prt_lo d = pb at *
        generalize S.fld_lo d = fb at *
        cases b <;> rfl

end

end Psc.WallPic.Inj
