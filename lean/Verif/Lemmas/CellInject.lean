import Verif.Spec.CellInject
import Verif.Lemmas.DeckRun

/-!
# Lemmas for drivers that inject plasma during the run
-/

namespace Psc.CellInject

open Domain Ddc FieldStep Fields Spec Spec.Yee Moments Pic

/-! ### One cell -/

/-- what the lambda asks for -/
def ask (init : ℕ → Setup.Npt ℝ → Setup.Npt ℝ) (k : ℕ) : Setup.Npt ℝ := init k ⟨k, 0, 0⟩

noncomputable def npOf (init : ℕ → Setup.Npt ℝ → Setup.Npt ℝ) (k : ℕ) : Setup.Np ℝ := ⟨k, (ask init k).n, (ask init k).kind, (ask init k).tag⟩

theorem toInt_nonneg {x : ℝ} (h : 0 ≤ x) : Setup.toInt x = ⌊x⌋ := by unfold Setup.toInt; rw [if_pos h]

/-- charge of the particles made in one cell -/
noncomputable def cellQ (D : Driver) (l : List (ℤ × Setup.Np ℝ)) : ℝ :=
  (l.map fun o => (o.1.toNat : ℝ) * (Setup.getWeight D.prm o.2.n o.1 * D.prm.q.getD o.2.kind 0)).sum

/-- the grid has the kinds of the driver -/
def Kinds (S : Pic.Setup) (D : Driver) : Prop := ∀ k, S.P.q k = D.prm.q.getD k 0

/-- making particles does not fail -/
structure Ok (D : Driver) : Prop where
  q : ∀ k, D.prm.q.getD k 0 ≠ 0 ↔ k < D.kinds.length
  cell : ∀ rnd init j, ∃ l s, Setup.cellLoop D.prm rnd (Setup.initNpt_to_initNp init) D.prm.n_populations 0 ⟨0, j⟩ = some (l, s) ∧
    ∀ o ∈ l, o.2.kind < D.kinds.length

/-- the charge of the particles made in a cell is between `lo` and `hi` -/
def CellBound (D : Driver) (rnd : ℕ → ℝ) (init : ℕ → Setup.Npt ℝ → Setup.Npt ℝ) (lo hi : ℝ) : Prop :=
  ∀ j l s, Setup.cellLoop D.prm rnd (Setup.initNpt_to_initNp init) D.prm.n_populations 0 ⟨0, j⟩ = some (l, s) →
    lo ≤ cellQ D l ∧ cellQ D l ≤ hi

/-- the plasma injected is neutral -/
def Neutral (D : Driver) : Prop := 0 < D.interval → ∀ rnd : ℕ → ℝ, (∀ j, 0 ≤ rnd j) → ∀ h pos, CellBound D rnd (D.inject h pos) 0 0

/-! ### The particles of a patch -/

theorem calls_spec {D : Driver} (hD : Ok D) (rnd : ℕ → ℝ) (init : I3 → ℕ → Setup.Npt ℝ → Setup.Npt ℝ) (pos : I3 → R3 ℝ) :
    ∀ (cs : List I3) (i : ℕ), ∃ calls, Offsets.callsOf D.prm rnd (fun n => Setup.initNpt_to_initNp (init n)) pos cs i = some calls ∧
      (∀ c ∈ calls, c.kind < D.kinds.length ∧ ∃ n ∈ cs, c.pos = pos n) ∧
      ((∀ n ∈ cs, CellBound D rnd (init n) 0 0) → ∀ g : R3 ℝ → ℝ,
        (calls.map fun c => (c.n_in_cell.toNat : ℝ) * (c.weight * D.prm.q.getD c.kind 0 * g c.pos)).sum = 0) ∧
      (∀ lo hi, (∀ n ∈ cs, CellBound D rnd (init n) lo hi) →
        cs.length * lo ≤ (calls.map fun c => (c.n_in_cell.toNat : ℝ) * (c.weight * D.prm.q.getD c.kind 0)).sum ∧
        (calls.map fun c => (c.n_in_cell.toNat : ℝ) * (c.weight * D.prm.q.getD c.kind 0)).sum ≤ cs.length * hi) := by
  intro cs
  induction cs with
  | nil => exact fun i => ⟨[], rfl, by simp, by simp, by simp⟩
  | cons n cs ih =>
    intro i
    obtain ⟨l, s, h, hkind⟩ := hD.cell rnd (init n) i
    obtain ⟨calls, hc, h1, h2, h3⟩ := ih s.pos
    refine ⟨_, by
      simp only [Offsets.callsOf, Option.bind_eq_bind]
      rw [h]
      simp only [Option.bind_some]
      rw [hc]
      rfl, ?_, ?_, ?_⟩
    · intro c hcm
      rcases List.mem_append.1 hcm with hcm | hcm
      · obtain ⟨o, ho, rfl⟩ := List.mem_map.1 hcm
        exact ⟨hkind o ho, n, by simp, rfl⟩
      · obtain ⟨a, m, b, c⟩ := h1 c hcm
        exact ⟨a, m, by simp [b], c⟩
    · intro hn g
      rw [List.map_append, List.sum_append, h2 (fun n hn' => hn n (by simp [hn'])) g, add_zero]
      have hq : cellQ D l = 0 := le_antisymm (hn n (by simp) i l s h).2 (hn n (by simp) i l s h).1
      have e : cellQ D l * g (pos n) = 0 := by rw [hq, zero_mul]
      refine Eq.trans ?_ e
      rw [cellQ, ← List.sum_map_mul_right, List.map_map]
      refine congrArg List.sum (List.map_congr_left fun o _ => ?_)
      simp only [Function.comp]
      ring
    · intro lo hi hn
      obtain ⟨a1, a2⟩ := h3 lo hi (fun n hn' => hn n (by simp [hn']))
      obtain ⟨b1, b2⟩ := hn n (by simp) i l s h
      rw [List.map_append, List.sum_append, List.map_map]
      have : (l.map ((fun c : Offsets.Call ℝ => (c.n_in_cell.toNat : ℝ) * (c.weight * D.prm.q.getD c.kind 0)) ∘
          fun o => ⟨o.1, o.2.kind, Setup.getWeight D.prm o.2.n o.1, pos n⟩)).sum = cellQ D l := rfl
      rw [this, List.length_cons]
      push_cast
      constructor <;> nlinarith

theorem pos_inside {S : Pic.Setup} (hdx : ∀ d, 0 < S.P.dx d) (D : Driver) (corner : R3 ℝ) (r p : ℕ) {n : I3}
    (hn : n ∈ InitDensity.cells S.c.ldims) :
    InitDensity.Inside (DeckRun.gridOf S D.kinds) (InitDensity.xb (DeckRun.gridOf S D.kinds) (deckOf corner) r p)
      (InitDensity.posOf (DeckRun.gridOf S D.kinds) (deckOf corner) r p n) := by
  intro d
  have hd := (InitDensity.mem_cells _ _).1 hn d
  have h0 : (0 : ℝ) ≤ n d := by exact_mod_cast hd.1
  have h1 : (n d : ℝ) + 1 ≤ S.c.ldims d := by exact_mod_cast hd.2
  have hx := hdx d
  show _ ≤ _ ∧ _ < _ + (S.c.ldims d : ℝ) * S.P.dx d
  unfold InitDensity.posOf
  simp only [show (DeckRun.gridOf S D.kinds).P.dx d = S.P.dx d from rfl]
  split_ifs
  · constructor
    · have := mul_nonneg h0 hx.le; linarith
    · have := mul_lt_mul_of_pos_right (show (n d : ℝ) < S.c.ldims d by linarith) hx; linarith
  · constructor
    · have := mul_nonneg (show (0 : ℝ) ≤ n d + 1 / 2 by linarith) hx.le; linarith
    · have := mul_lt_mul_of_pos_right (show (n d : ℝ) + 1 / 2 < S.c.ldims d by linarith) hx; linarith

theorem q_ne {S : Pic.Setup} {D : Driver} (hD : Ok D) (hk : Kinds S D) {k : ℕ} : S.P.q k ≠ 0 ↔ k < D.kinds.length := by
  rw [hk k]
  exact hD.q k

theorem setupPatch_core {S : Pic.Setup} (hdx : ∀ d, 0 < S.P.dx d) (hl : ∀ d, 0 < S.c.ldims d) {D : Driver} (hD : Ok D) (hk : Kinds S D)
    (corner : R3 ℝ) (init : I3 → ℕ → Setup.Npt ℝ → Setup.Npt ℝ) (R : InitDensity.Random) (r p : ℕ) :
    ∃ l, setupPatch S D corner init R r p = some l ∧
      (∀ q ∈ l, S.P.q q.kind ≠ 0 ∧ ∀ d, 0 ≤ q.x d ∧ q.x d < S.c.ldims d * S.P.dx d) ∧
      ∃ calls, Offsets.callsOf D.prm R.rnd (fun n => Setup.initNpt_to_initNp (init n))
        (InitDensity.posOf (DeckRun.gridOf S D.kinds) (deckOf corner) r p) (InitDensity.cells S.c.ldims) 0 = some calls ∧
        ∀ g : R3 ℝ → ℝ, (l.map fun q => q.qw * g q.x).sum = (calls.map fun c => (c.n_in_cell.toNat : ℝ) *
          (c.weight * D.prm.q.getD c.kind 0 * g (fun d => c.pos d - InitDensity.xb (DeckRun.gridOf S D.kinds) (deckOf corner) r p d))).sum := by
  set G := DeckRun.gridOf S D.kinds with hG
  set xb := InitDensity.xb G (deckOf corner) r p with hxb
  obtain ⟨calls, hc, h1, h2⟩ := calls_spec hD R.rnd init (InitDensity.posOf G (deckOf corner) r p) (InitDensity.cells G.c.ldims) 0
  have hxe : ∀ d, InitDensity.xe G (deckOf corner) r p d = xb d + G.c.ldims d * G.P.dx d := by
    intro d; rw [hxb]; unfold InitDensity.xe InitDensity.xb; ring
  have hin : ∀ c ∈ calls, InitDensity.Inside G xb c.pos := by
    intro c hcm
    obtain ⟨-, n, hn, e⟩ := h1 c hcm
    rw [e]
    exact pos_inside hdx D corner r p hn
  obtain ⟨l, e, hkey⟩ := InitDensity.injectCalls_spec (G := G) hdx hl R.mom calls ⟨xb, InitDensity.xe G (deckOf corner) r p, []⟩
    (fun c hcm => ⟨(h1 c hcm).1, hin c hcm⟩) hxe
  dsimp only at hkey
  refine ⟨l.map InitDensity.toPrt, ?_, ?_, calls, hc, ?_⟩
  · unfold setupPatch
    rw [← hG]
    simp only [hc, Option.bind_eq_bind, Option.bind_some]
    rw [← hxb, e]
    simp
  · intro q hq
    obtain ⟨a, ha, rfl⟩ := List.mem_map.1 hq
    have hka : InitDensity.key xb a ∈ l.map (InitDensity.key xb) := List.mem_map_of_mem ha
    rw [hkey] at hka
    obtain ⟨c, hcm, hka⟩ := List.mem_flatMap.1 hka
    have hka := List.eq_of_mem_replicate hka
    have ek : a.kind = c.kind := congrArg (fun z => z.2.1) hka
    have ex : ∀ d, xb d + a.x d = c.pos d := fun d => congrFun (congrArg (fun z => z.1) hka) d
    refine ⟨(q_ne hD hk).2 (by show a.kind < _; rw [ek]; exact (h1 c hcm).1), fun d => ?_⟩
    have h3 : xb d ≤ c.pos d ∧ c.pos d < xb d + S.c.ldims d * S.P.dx d := hin c hcm d
    have := ex d
    show 0 ≤ a.x d ∧ a.x d < _
    constructor <;> linarith
  · intro g
    have e1 : ((l.map InitDensity.toPrt).map fun q => q.qw * g q.x) =
        (l.map (InitDensity.key xb)).map fun z => z.2.2 * g (fun d => z.1 d - xb d) := by
      rw [List.map_map, List.map_map]
      refine List.map_congr_left fun a _ => ?_
      simp only [Function.comp, InitDensity.key, InitDensity.toPrt]
      congr 2
      funext d
      ring
    rw [e1, hkey]
    clear h1 h2 hin hkey hc e e1
    induction calls with
    | nil => rfl
    | cons c cs ih =>
      rw [List.flatMap_cons, List.map_append, List.sum_append, ih, List.map_cons, List.sum_cons, List.map_replicate, List.sum_replicate,
        nsmul_eq_mul]
      dsimp only
      rw [show G.P.q c.kind = D.prm.q.getD c.kind 0 from hk _]

theorem setupPatch_spec {S : Pic.Setup} (hdx : ∀ d, 0 < S.P.dx d) (hl : ∀ d, 0 < S.c.ldims d) {D : Driver} (hD : Ok D) (hk : Kinds S D)
    (corner : R3 ℝ) (init : I3 → ℕ → Setup.Npt ℝ → Setup.Npt ℝ) (R : InitDensity.Random) (r p : ℕ) :
    ∃ l, setupPatch S D corner init R r p = some l ∧
      (∀ q ∈ l, S.P.q q.kind ≠ 0 ∧ ∀ d, 0 ≤ q.x d ∧ q.x d < S.c.ldims d * S.P.dx d) ∧
      ((∀ n, CellBound D R.rnd (init n) 0 0) → ∀ g : R3 ℝ → ℝ, (l.map fun q => q.qw * g q.x).sum = 0) ∧
      ∀ lo hi, (∀ n, CellBound D R.rnd (init n) lo hi) →
        (InitDensity.cells S.c.ldims).length * lo ≤ charge l ∧ charge l ≤ (InitDensity.cells S.c.ldims).length * hi := by
  obtain ⟨l, e, h1, calls, hc, h2⟩ := setupPatch_core hdx hl hD hk corner init R r p
  obtain ⟨calls', hc', -, h3, h4⟩ := calls_spec hD R.rnd init (InitDensity.posOf (DeckRun.gridOf S D.kinds) (deckOf corner) r p)
    (InitDensity.cells S.c.ldims) 0
  rw [hc] at hc'
  obtain rfl := Option.some.inj hc'
  refine ⟨l, e, h1, fun hn g => ?_, fun lo hi hn => ?_⟩
  · rw [h2]
    exact h3 (fun n _ => hn n) fun y => g (fun d => y d - InitDensity.xb (DeckRun.gridOf S D.kinds) (deckOf corner) r p d)
  · have hq := h2 fun _ => 1
    simp only [mul_one] at hq
    unfold charge
    rw [hq]
    exact h4 lo hi fun n _ => hn n

/-! ### Charge density -/

theorem W_scale {S : Pic.Setup} (hc : Scheme S) (y : R3 ℝ) (v : ℝ) (g : I3 → ℝ) :
    W (Deposit.code S.dep S.P.dx S.P.fnqs y v) 0 g = v * W (Deposit.code S.dep S.P.dx S.P.fnqs y 1) 0 g := by
  obtain ⟨C, -, hdep, -⟩ := DeckRun.code_of hc
  have hs : ∀ l : List (Add ℝ), W (l.map fun e => { e with v := v * e.v }) 0 g = v * W l 0 g := by
    intro l
    induction l with
    | nil => simp [W]
    | cons e l ih =>
      rw [List.map_cons, W_cons, W_cons, ih, mul_add]
      congr 1
      split_ifs
      · show g (at_ e) * (v * e.v) = _; ring
      · ring
  have hf : ∀ (l : List (Add ℝ)) i j k, fieldOf (l.map fun e => { e with v := v * e.v }) 0 i j k = v * fieldOf l 0 i j k := by
    intro l i j k
    unfold fieldOf
    induction l with
    | nil => simp
    | cons e l ih =>
      simp only [List.map_cons, List.sum_cons, ih, mul_add]
      congr 1
      split_ifs <;> ring
  rw [← hs]
  refine W_congr (fun i j k => ?_) g
  rw [hf]
  unfold Deposit.code
  rw [hdep]
  have := dep_share C (fun d => y d * (1 / S.P.dx d)) (S.P.fnqs * v) ![i, j, k]
  have h1 := dep_share C (fun d => y d * (1 / S.P.dx d)) (S.P.fnqs * 1) ![i, j, k]
  simp only [Matrix.cons_val_zero, Matrix.cons_val_one, Matrix.cons_val] at this h1
  rw [this, h1]
  ring

theorem wt_eq {S : Pic.Setup} (hc : Scheme S) (x : I3) (rp : ℕ × ℕ) {q : Push.Prt} (hq : S.P.q q.kind ≠ 0) :
    wt S x rp q = q.qw * W (Deposit.code S.dep S.P.dx S.P.fnqs q.x 1) 0 (Pic.ind S.c rp x) := by
  unfold wt
  rw [W_scale hc]
  unfold Push.charge
  rw [div_mul_cancel₀ _ hq]

/-- particles with as much positive as negative charge at each position do not change the charge density -/
theorem rhoG_append {S : Pic.Setup} (hc : Scheme S) {prts new : ℕ → ℕ → List Push.Prt} (hq : PrtsCharged S new)
    (h : ∀ r p, S.c.D.Has r p → ∀ g : R3 ℝ → ℝ, ((new r p).map fun q => q.qw * g q.x).sum = 0) (x : I3) :
    rhoG S (fun r p => prts r p ++ new r p) x = rhoG S prts x := by
  rw [rhoG_eq, rhoG_eq]
  refine congrArg List.sum (List.map_congr_left fun rp hrp => ?_)
  have hh : S.c.D.Has rp.1 rp.2 := Bndp.mem_allPatches.1 hrp
  rw [List.map_append, List.sum_append]
  have : ((new rp.1 rp.2).map (wt S x rp)) = (new rp.1 rp.2).map fun q => q.qw *
      (fun y => W (Deposit.code S.dep S.P.dx S.P.fnqs y 1) 0 (Pic.ind S.c rp x)) q.x :=
    List.map_congr_left fun q hq' => wt_eq hc x rp (hq _ _ hh q hq')
  rw [this, h _ _ hh (fun y => W (Deposit.code S.dep S.P.dx S.P.fnqs y 1) 0 (Pic.ind S.c rp x)), add_zero]

theorem setupParticles_spec {S : Pic.Setup} (hdx : ∀ d, 0 < S.P.dx d) (hl : ∀ d, 0 < S.c.ldims d) {D : Driver} (hD : Ok D) (hk : Kinds S D)
    (corner : R3 ℝ) (init : ℕ → ℕ → I3 → ℕ → Setup.Npt ℝ → Setup.Npt ℝ) (R : ℕ → ℕ → InitDensity.Random)
    (prts : ℕ → ℕ → List Push.Prt) :
    ∃ new, setupParticles S D corner init R prts = some (fun r p => prts r p ++ new r p) ∧
      PrtsInside S new ∧ PrtsCharged S new ∧
      ((∀ r p n, CellBound D (R r p).rnd (init r p n) 0 0) →
        ∀ r p, S.c.D.Has r p → ∀ g : R3 ℝ → ℝ, ((new r p).map fun q => q.qw * g q.x).sum = 0) := by
  have hsp := fun r p => setupPatch_spec hdx hl hD hk corner (init r p) (R r p) r p
  refine ⟨fun r p => (setupPatch S D corner (init r p) (R r p) r p).getD [], ?_, ?_, ?_, ?_⟩
  · unfold setupParticles
    rw [if_pos]
    intro r _ p _
    obtain ⟨l, e, -⟩ := hsp r p
    rw [e]; rfl
  · intro r p _ q hq
    obtain ⟨l, e, h1, -⟩ := hsp r p
    simp only [e, Option.getD_some] at hq
    exact (h1 q hq).2
  · intro r p _ q hq
    obtain ⟨l, e, h1, -⟩ := hsp r p
    simp only [e, Option.getD_some] at hq
    exact (h1 q hq).1
  · intro h1 r p _ g
    obtain ⟨l, e, -, h5, -⟩ := hsp r p
    simp only [e, Option.getD_some]
    exact h5 (h1 r p) g

/-! ### The density the injection reads -/

theorem push_near1 {S : Pic.Setup} {w : ℤ} (hF : Fit S w) {prts : ℕ → ℕ → List Push.Prt} (flds : Glob ℝ)
    (hp : PrtsInside S prts) : ∀ r p, S.c.D.Has r p → ∀ q ∈ (pushPrts S prts flds).1 r p, ∀ d,
      (-S.P.dx d < q.x d ∧ q.x d < S.c.ldims d * S.P.dx d + S.P.dx d) := by
  intro r p hh q hq d
  obtain ⟨q0, h0, rfl⟩ := pushAll_mem _ _ _ _ _ hq
  obtain ⟨a, b⟩ := hp r p hh q0 h0 d
  have hd := hF.dx d
  have hx : (Push.pushOne S.cfg S.P (emOf (flds r p)) q0).1.x d =
      if S.cfg.inv d then q0.x d else q0.x d + 1 * S.P.dt * Push.calc_v (Push.pushOne S.cfg S.P (emOf (flds r p)) q0).1.u d := rfl
  rw [hx]
  cases hi : S.cfg.inv d
  · simp only [Bool.false_eq_true, if_false]
    have hv := abs_lt.1 (Push.calc_v_lt (Push.pushOne S.cfg S.P (emOf (flds r p)) q0).1.u d)
    have hdt := hF.dt
    have hc := (hF.act d hi).2.2.2.2
    constructor <;> nlinarith
  · simp only [if_true]
    constructor <;> linarith

/-- a particle up to one cell outside of its patch is deposited at most two cells outside -/
theorem dep_near (C : Code) (hC : C = .cc1_xyz ∨ C = .cc1_yz) (L : I3) (x : R3 ℝ) (v : ℝ) (h : ∀ d, -1 < x d ∧ x d < L d + 1) :
    ∀ e ∈ C.dep x v, ∀ d, if C.act d then -2 ≤ at_ e d ∧ at_ e d ≤ L d + 1 else at_ e d = 0 := by
  have fl : ∀ d, -2 ≤ ⌊x d - 1/2⌋ ∧ ⌊x d - 1/2⌋ < L d + 1 := by
    intro d
    have := h d
    refine ⟨Int.le_floor.2 (by push_cast; linarith), Int.floor_lt.2 (by push_cast; linarith)⟩
  have a0 := fl 0; have a1 := fl 1; have a2 := fl 2
  rcases hC with rfl | rfl
  · intro e he d
    rw [if_pos (by fin_cases d <;> rfl)]
    simp only [Code.dep, Deposit.cc1_xyz, Deposit.first_xyz, List.mem_cons, List.not_mem_nil, or_false] at he
    rcases he with h | h | h | h | h | h | h | h <;> subst h <;>
      (match d with
        | 0 => simp only [at_, Matrix.cons_val_zero]; omega
        | 1 => simp only [at_, Matrix.cons_val]; omega
        | 2 => simp only [at_, Matrix.cons_val]; omega)
  · intro e he d
    simp only [Code.dep, Deposit.cc1_yz, Deposit.first_yz, List.mem_cons, List.not_mem_nil, or_false] at he
    rcases he with h | h | h | h <;> subst h <;>
      (match d with
        | 0 => rfl
        | 1 => rw [if_pos (by rfl)]; simp only [at_, Matrix.cons_val]; omega
        | 2 => rw [if_pos (by rfl)]; simp only [at_, Matrix.cons_val]; omega)

theorem item_some {S : Pic.Setup} (hc : Scheme S) (hF : Fit S 2) {D : Driver} (hD : Ok D) (hk : Kinds S D) {prts : ℕ → ℕ → List Push.Prt}
    (hn : ∀ r p, S.c.D.Has r p → ∀ q ∈ prts r p, ∀ d, -S.P.dx d < q.x d ∧ q.x d < S.c.ldims d * S.P.dx d + S.P.dx d)
    (hq : PrtsCharged S prts) : ∃ N, item (DeckRun.gridOf S D.kinds) .n (codeOf S) prts = some N := by
  have hC : codeOf S = .cc1_xyz ∨ codeOf S = .cc1_yz := by unfold codeOf; split_ifs <;> simp
  have hact : ∀ d, (codeOf S).act d = !S.cfg.inv d := by
    intro d
    unfold codeOf
    obtain ⟨h1, -⟩ | ⟨h1, -⟩ := hc <;> rw [h1] <;> fin_cases d <;> rfl
  unfold item
  rw [if_pos]
  · obtain ⟨τ, h, -⟩ := addAll_spec (hF.fits (le_refl 2)) 0 (n_comps (DeckRun.gridOf S D.kinds) .n) (by omega)
      (fun r p => foldWalls (DeckRun.gridOf S D.kinds) (codeOf S) r p
        ((deposited (DeckRun.gridOf S D.kinds) .n (codeOf S) (prts r p)).getD fun _ => 0))
    exact ⟨τ, h⟩
  · intro r hr p hp
    have hh : S.c.D.Has r p := ⟨List.mem_range.1 hr, List.mem_range.1 hp⟩
    unfold deposited
    rw [accumulate_eq (DeckRun.gridOf S D.kinds) .n (codeOf S) (prts r p) fun q hq' => hq r p hh q hq']
    simp only [bind, Option.bind_some]
    rw [if_pos]
    · rfl
    · intro e he
      obtain ⟨q, hq', he⟩ := List.mem_flatMap.1 he
      obtain ⟨c, hcc, he⟩ := List.mem_flatMap.1 he
      obtain ⟨e', he', rfl⟩ := List.mem_map.1 he
      refine ⟨calls_lt .n (DeckRun.gridOf S D.kinds) q _ ((q_ne hD hk).1 (hq r p hh q hq')) c hcc, ?_⟩
      unfold Deposit.code at he'
      have hx : ∀ d, -1 < q.x d * (1 / S.P.dx d) ∧ q.x d * (1 / S.P.dx d) < S.c.ldims d + 1 := by
        intro d
        have h1 := hn r p hh q hq' d
        have h2 := hF.dx d
        rw [mul_one_div]
        rw [lt_div_iff₀ h2, div_lt_iff₀ h2]
        constructor <;> nlinarith
      have hd := dep_near (codeOf S) hC S.c.ldims _ _ hx e' he'
      have key : ∀ d, -S.c.ibn d ≤ at_ e' d ∧ at_ e' d < S.c.ldims d + S.c.ibn d := by
        intro d
        have := hd d
        rw [hact] at this
        cases hi : S.cfg.inv d
        · rw [hi] at this
          simp only [Bool.not_false, if_true] at this
          have := (hF.act d hi).2.1
          omega
        · rw [hi] at this
          simp only [Bool.not_true, Bool.false_eq_true, if_false] at this
          have := hF.inv d hi
          omega
      exact ⟨key 0, key 1, key 2⟩

/-! ### Injection -/

/-- heating is like sorting -/
theorem heat_keeps {i : StepIn} (hi : StepOk i) : KeepsCharge ⟨i.heat, []⟩ := hi.heat

theorem inject_heat_spec {S : Pic.Setup} (hc : Scheme S) (hF : Fit S 2) {D : Driver} (hD : Ok D) (hk : Kinds S D) (corner : R3 ℝ)
    {i : StepIn} (hi : StepOk i) {prts : ℕ → ℕ → List Push.Prt}
    (hn1 : ∀ r p, S.c.D.Has r p → ∀ q ∈ prts r p, ∀ d, -S.P.dx d < q.x d ∧ q.x d < S.c.ldims d * S.P.dx d + S.P.dx d)
    (hn : PrtsNear S prts) (hq : PrtsCharged S prts) :
    ∃ T, inject_heat S D corner i prts = some T ∧ PrtsNear S T ∧ PrtsCharged S T ∧
      (Neutral D → ∀ x, rhoG S T x = rhoG S prts x) := by
  obtain ⟨T0, e0, a1, a2, a3⟩ : ∃ T0, inject S D corner i prts = some T0 ∧ PrtsNear S T0 ∧ PrtsCharged S T0 ∧ (Neutral D → ∀ x, rhoG S T0 x = rhoG S prts x) := by
    unfold inject
    split_ifs with ht
    · obtain ⟨N, hN⟩ := item_some hc hF hD hk hn1 hq
      obtain ⟨new, e, h1, h2, h3⟩ := setupParticles_spec hF.dx hF.pos hD hk corner
        (fun r p n => D.inject (fun k => N r p (k, n)) (posOf S D corner r p n)) i.R prts
      refine ⟨_, by rw [hN]; exact e, ?_, ?_, fun hneu x => ?_⟩
      · intro r p hh q hq' d
        rcases List.mem_append.1 hq' with h | h
        · exact hn r p hh q h d
        · obtain ⟨b1, b2⟩ := h1 r p hh q h d
          have := hF.dx d
          have hL : (0 : ℝ) < S.c.ldims d := by exact_mod_cast hF.pos d
          have := mul_pos hL this
          exact ⟨⟨by linarith, by linarith⟩, fun _ => ⟨b1, b2⟩⟩
      · intro r p hh q hq'
        rcases List.mem_append.1 hq' with h | h
        · exact hq r p hh q h
        · exact h2 r p hh q h
      · exact rhoG_append hc h2 (h3 fun r p n => hneu ht.1 _ (hi.draws r p) _ _) x
    · exact ⟨prts, rfl, hn, hq, fun _ _ => rfl⟩
  refine ⟨fun r p => i.heat r p (T0 r p), ?_, ?_, ?_, fun hneu x => ?_⟩
  · unfold inject_heat
    rw [e0]
    rfl
  · intro r p hh q hq' d
    obtain ⟨q', h1, h2, -⟩ := pre_mem (heat_keeps hi) (r := r) (p := p) hq'
    have := a1 r p hh q' h1 d
    rwa [h2] at this
  · intro r p hh q hq'
    obtain ⟨q', h1, -, h3⟩ := pre_mem (heat_keeps hi) (r := r) (p := p) hq'
    have := a2 r p hh q' h1
    rwa [h3] at this
  · rw [← a3 hneu x]
    exact rhoG_pre S (heat_keeps hi) T0 x

/-! ### Steps -/

theorem prts_spec {S : Pic.Setup} (hc : Scheme S) (hF : Fit S 2) {D : Driver} (hD : Ok D) (hk : Kinds S D) (corner : R3 ℝ)
    {i : StepIn} (hi : StepOk i) {s : State} (hp : PrtsInside S s.prts) (hq : PrtsCharged S s.prts) :
    ∃ T0 T rho, inject_heat S D corner i (pushPrts S (fun r p => i.base.pre r p (s.prts r p)) s.flds).1 = some T0 ∧
      exchangePrts S T0 = some T ∧
      itemRho S T = some rho ∧ PrtsInside S T ∧ PrtsCharged S T ∧ Owns S.c rho 0 (rhoG S T) ∧
      (Neutral D → ∀ x, rhoG S T x - rhoG S s.prts x + S.P.dt * Yee.divE S.g.act S.P.dx (fun d : Fin 3 =>
        total S.c (pushPrts S (fun r p => i.base.pre r p (s.prts r p)) s.flds).2 (JXI + d)) x = 0) := by
  have hS := hc.sound hF
  have hp' : PrtsInside S (fun r p => i.base.pre r p (s.prts r p)) := by
    intro r p hh q hq' d
    obtain ⟨q', h1, h2, -⟩ := pre_mem hi.pre hq'
    have := hp r p hh q' h1 d
    rwa [h2] at this
  have hq' : PrtsCharged S (fun r p => i.base.pre r p (s.prts r p)) := by
    intro r p hh q hq'
    obtain ⟨q', h1, -, h3⟩ := pre_mem hi.pre hq'
    have := hq r p hh q' h1
    rwa [h3] at this
  obtain ⟨hn, hcg⟩ := push_near hF s.flds hp' hq'
  obtain ⟨T0, e0, n0, c0, r0⟩ := inject_heat_spec hc hF hD hk corner hi (push_near1 hF s.flds hp') hn hcg
  obtain ⟨T, h1, h2, h3, h4⟩ := exchange_spec hF hS n0 c0
  obtain ⟨rho, h5, h6⟩ := itemRho_spec (hF.fits (le_refl 2)) hS h2
  refine ⟨T0, T, rho, e0, h1, h5, h2, h3, h6, fun hneu x => ?_⟩
  rw [h4 x, r0 hneu x, ← rhoG_pre S hi.pre s.prts x]
  exact push_continuity hS s.flds hp' hq' x

theorem step_spec' {S : Pic.Setup} (hc : Scheme S) (hF : Fit S 2) {D : Driver} (hD : Ok D) (hk : Kinds S D) (corner : R3 ℝ)
    {i : StepIn} (hi : StepOk i) (s : State) (h : Inv S s) (E H : VF ℝ) (pE : ∀ d, Periodic S.c (E d)) (pH : ∀ d, Periodic S.c (H d))
    (hE : ∀ d : Fin 3, Holds S.c s.flds (EX + d) (E d)) (hH : ∀ d : Fin 3, Holds S.c s.flds (HX + d) (H d)) :
    ∃ (s' : State) (J E' H' : VF ℝ) (ms : List (Corrector ℝ)),
      (∀ d : Fin 3, Holds S.c s'.flds (JXI + d) (J d)) ∧ step S D corner i s = some s' ∧ Inv S s' ∧
      ms.map Corrector.diffusion_ = i.base.ms.map CorrIn.diffusion_ ∧
      (∀ d, Periodic S.c (E' d)) ∧ (∀ d, Periodic S.c (H' d)) ∧
      (∀ d : Fin 3, Holds S.c s'.flds (EX + d) (E' d)) ∧ (∀ d : Fin 3, Holds S.c s'.flds (HX + d) (H' d)) ∧
      E' = correctorsE S.g (rhoG S s'.prts) ms
        (ampere S.g.act S.g.dx S.g.dt E (faraday S.g.act S.g.dx (1/2 * S.g.dt) E H) J) ∧
      H' = faraday S.g.act S.g.dx (1/2 * S.g.dt) E' (faraday S.g.act S.g.dx (1/2 * S.g.dt) E H) ∧
      (Neutral D → ∀ x, rhoG S s'.prts x - rhoG S s.prts x + S.g.dt * Yee.divE S.g.act S.g.dx J x = 0) ∧ ∀ d, Periodic S.c (J d) := by
  obtain ⟨T0, T, rho, h0, h1, h2, h3, h4, h5, h6⟩ := prts_spec hc hF hD hk corner hi h.inside h.charged
  have hM : itemRhoM S T = some rho := by rw [← h2]; unfold itemRhoM itemRho; rw [hc.depM]
  set ms : List (Corrector ℝ) := i.base.ms.map fun m =>
    { walls := ⟨fun _ _ _ => false, fun _ _ _ => false⟩, diffusion_ := m.diffusion_, loop := m.loop, rho := rho, junk := m.junk }
    with hms
  obtain ⟨τ, f1, f2, f3, f4, f5, f6⟩ := fieldStep_spec' (hF.fits (le_refl 2))
    (pushPrts S (fun r p => i.base.pre r p (s.prts r p)) s.flds).2 (rhoG_periodic S T) ms
    (by
      intro m hm
      obtain ⟨m', hm', rfl⟩ := List.mem_map.1 hm
      exact ⟨h5, fun _ _ _ => ⟨rfl, rfl⟩⟩) rfl rfl rfl rfl pE pH hE hH
  refine ⟨⟨T, τ⟩, _, _, _, ms, f6, ?_, ⟨FieldsAgree.mk f4 f5 f2 f3, h3, h4⟩, ?_, f4, f5, f2, f3, rfl, rfl, h6, fun _ => total_periodic _ _ _⟩
  · unfold step
    simp only [Option.bind_eq_bind, h0, h1, hM, Option.bind_some]
    rw [f1]
    rfl
  · rw [hms, List.map_map]; rfl

theorem step_spec {S : Pic.Setup} (hc : Scheme S) (hF : Fit S 2) {D : Driver} (hD : Ok D) (hk : Kinds S D) (corner : R3 ℝ)
    {i : StepIn} (hi : StepOk i) (s : State) (h : Inv S s) (E H : VF ℝ) (pE : ∀ d, Periodic S.c (E d)) (pH : ∀ d, Periodic S.c (H d))
    (hE : ∀ d : Fin 3, Holds S.c s.flds (EX + d) (E d)) (hH : ∀ d : Fin 3, Holds S.c s.flds (HX + d) (H d)) :
    ∃ (s' : State) (J E' H' : VF ℝ) (ms : List (Corrector ℝ)),
      (∀ d : Fin 3, Holds S.c s'.flds (JXI + d) (J d)) ∧ step S D corner i s = some s' ∧ Inv S s' ∧
      ms.map Corrector.diffusion_ = i.base.ms.map CorrIn.diffusion_ ∧
      (∀ d, Periodic S.c (E' d)) ∧ (∀ d, Periodic S.c (H' d)) ∧
      (∀ d : Fin 3, Holds S.c s'.flds (EX + d) (E' d)) ∧ (∀ d : Fin 3, Holds S.c s'.flds (HX + d) (H' d)) ∧
      E' = correctorsE S.g (rhoG S s'.prts) ms
        (ampere S.g.act S.g.dx S.g.dt E (faraday S.g.act S.g.dx (1/2 * S.g.dt) E H) J) ∧
      H' = faraday S.g.act S.g.dx (1/2 * S.g.dt) E' (faraday S.g.act S.g.dx (1/2 * S.g.dt) E H) ∧
      (Neutral D → ∀ x, rhoG S s'.prts x - rhoG S s.prts x + S.g.dt * Yee.divE S.g.act S.g.dx J x = 0) := by
  obtain ⟨s', J, E', H', ms, a1, a2, a3, a4, a5, a6, a7, a8, a9, a10, a11, -⟩ := step_spec' hc hF hD hk corner hi s h E H pE pH hE hH
  exact ⟨s', J, E', H', ms, a1, a2, a3, a4, a5, a6, a7, a8, a9, a10, a11⟩

/-- whatever the charge of the ions, a run does not fail -/
theorem run_some {S : Pic.Setup} (hc : Scheme S) (hF : Fit S 2) {D : Driver} (hD : Ok D) (hk : Kinds S D) (corner : R3 ℝ)
    (l : List StepIn) (hl : ∀ i ∈ l, StepOk i) (s : State) (h : Inv S s) : ∃ s', run S D corner l s = some s' ∧ Inv S s' := by
  induction l generalizing s with
  | nil => exact ⟨s, rfl, h⟩
  | cons i l ih =>
    obtain ⟨E, H, pE, pH, hE, hH⟩ := h.agree.get
    obtain ⟨s1, -, -, -, -, -, e1, i1, -⟩ := step_spec hc hF hD hk corner (hl i List.mem_cons_self) s h E H pE pH hE hH
    obtain ⟨s', e2, i2⟩ := ih (fun i hi => hl i (List.mem_cons_of_mem _ hi)) s1 i1
    exact ⟨s', by simp only [run, Option.bind_eq_bind, e1, Option.bind_some]; exact e2, i2⟩

theorem run_inv {S : Pic.Setup} (hc : Scheme S) (hF : Fit S 2) {D : Driver} (hD : Ok D) (hk : Kinds S D) (hneu : Neutral D) (corner : R3 ℝ)
    (l : List StepIn) (hl : ∀ i ∈ l, StepOk i) (Q : (I3 → ℝ) → VF ℝ → VF ℝ → Prop)
    (hQ : ∀ i ∈ l, ∀ (ρ ρ' : I3 → ℝ) (E H J : VF ℝ) (ms : List (Corrector ℝ)),
      ms.map Corrector.diffusion_ = i.base.ms.map CorrIn.diffusion_ →
      (∀ x, ρ' x - ρ x + S.g.dt * Yee.divE S.g.act S.g.dx J x = 0) → Q ρ E H →
      Q ρ' (correctorsE S.g ρ' ms (ampere S.g.act S.g.dx S.g.dt E (faraday S.g.act S.g.dx (1/2 * S.g.dt) E H) J))
        (faraday S.g.act S.g.dx (1/2 * S.g.dt)
          (correctorsE S.g ρ' ms (ampere S.g.act S.g.dx S.g.dt E (faraday S.g.act S.g.dx (1/2 * S.g.dt) E H) J))
          (faraday S.g.act S.g.dx (1/2 * S.g.dt) E H)))
    (s : State) (h : Inv S s) (E H : VF ℝ) (pE : ∀ d, Periodic S.c (E d)) (pH : ∀ d, Periodic S.c (H d))
    (hE : ∀ d : Fin 3, Holds S.c s.flds (EX + d) (E d)) (hH : ∀ d : Fin 3, Holds S.c s.flds (HX + d) (H d))
    (h0 : Q (rhoG S s.prts) E H) :
    ∃ (s' : State) (E' H' : VF ℝ), run S D corner l s = some s' ∧ Inv S s' ∧
      (∀ d, Periodic S.c (E' d)) ∧ (∀ d, Periodic S.c (H' d)) ∧
      (∀ d : Fin 3, Holds S.c s'.flds (EX + d) (E' d)) ∧ (∀ d : Fin 3, Holds S.c s'.flds (HX + d) (H' d)) ∧
      Q (rhoG S s'.prts) E' H' := by
  induction l generalizing s E H with
  | nil => exact ⟨s, E, H, rfl, h, pE, pH, hE, hH, h0⟩
  | cons i l ih =>
    obtain ⟨s1, J, E1, H1, ms, -, e1, i1, em, a1, a2, a3, a4, a5, a6, hcont⟩ :=
      step_spec hc hF hD hk corner (hl i List.mem_cons_self) s h E H pE pH hE hH
    have q1 : Q (rhoG S s1.prts) E1 H1 := by
      rw [a6, a5]
      exact hQ i List.mem_cons_self _ _ E H J ms em (hcont hneu) h0
    obtain ⟨s', E', H', e2, r⟩ := ih (fun i hi => hl i (List.mem_cons_of_mem _ hi))
      (fun i hi => hQ i (List.mem_cons_of_mem _ hi)) s1 i1 E1 H1 a1 a2 a3 a4 q1
    exact ⟨s', E', H', by simp only [run, Option.bind_eq_bind, e1, Option.bind_some]; exact e2, r⟩

theorem run_gauss {S : Pic.Setup} (hc : Scheme S) (hF : Fit S 2) {D : Driver} (hD : Ok D) (hk : Kinds S D) (hneu : Neutral D) (corner : R3 ℝ)
    (l : List StepIn) (hl : ∀ i ∈ l, StepOk i) (hm : ∀ i ∈ l, ∀ m ∈ i.base.ms, 0 ≤ m.diffusion_ ∧ m.diffusion_ ≤ 1)
    (s : State) (h : Inv S s) (M : ℝ) (hM : GaussWithin S M s) :
    ∃ s', run S D corner l s = some s' ∧ Inv S s' ∧ GaussWithin S M s' := by
  have hf := hF.fits (le_refl 2)
  have hS := hc.sound hF
  obtain ⟨E, H, pE, pH, hE, hH⟩ := h.agree.get
  obtain ⟨rho, g1, g2⟩ := hM
  obtain ⟨rho', r1, r2⟩ := itemRho_spec hf hS h.inside
  rw [g1] at r1
  obtain rfl := Option.some.inj r1
  obtain ⟨s', E', H', e, iv, -, -, hE', -, hQ⟩ := run_inv hc hF hD hk hneu corner l hl
    (fun ρ E _ => (∀ d, 0 < S.c.D.np d) → ∀ x, Active S.g x → |divE S.g.act S.g.dx E x - ρ x| ≤ M)
    (by
      intro i hi ρ ρ' E H J ms em hcc hP hnp x hx
      refine correctorsE_bound S.g hf.dx hf.dt hc.active ρ' ms ?_ _ M (fun y hy => ?_) x hx
      · intro m hm'
        have : m.diffusion_ ∈ i.base.ms.map CorrIn.diffusion_ := by rw [← em]; exact List.mem_map.2 ⟨m, hm', rfl⟩
        obtain ⟨m', h1, h2⟩ := List.mem_map.1 this
        rw [← h2]
        exact hm i hi m' h1
      · rw [divE_ampere]
        have := hP hnp y hy
        rwa [show divE S.g.act S.g.dx E y - S.g.dt * divE S.g.act S.g.dx J y - ρ' y = divE S.g.act S.g.dx E y - ρ y by
          linear_combination -hcc y])
    s h E H pE pH hE hH
    (fun hnp => residual_global hf hE pE (rhoG_periodic S s.prts) r2 g2 hnp)
  obtain ⟨rho', t1, t2⟩ := itemRho_spec hf hS iv.inside
  refine ⟨s', e, iv, rho', t1, fun r p hh n hn => ?_⟩
  rw [div_nc_spec hf hE' hh hn, t2 r p hh n hn]
  exact hQ (has_np hf hh) _ (hf.active_off hh hn)

theorem run_residual {S : Pic.Setup} (hc : Scheme S) (hF : Fit S 2) {D : Driver} (hD : Ok D) (hk : Kinds S D) (hneu : Neutral D) (corner : R3 ℝ)
    (l : List StepIn) (hl : ∀ i ∈ l, StepOk i) (hm : ∀ i ∈ l, i.base.ms = []) (s : State) (h : Inv S s) :
    ∃ s' rho rho', run S D corner l s = some s' ∧ itemRho S s.prts = some rho ∧ itemRho S s'.prts = some rho' ∧
      ∀ r p, S.c.D.Has r p → ∀ n, Interior S.c n →
        div_nc S.g (s'.flds r p) n - rho' r p (0, n) = div_nc S.g (s.flds r p) n - rho r p (0, n) := by
  have hf := hF.fits (le_refl 2)
  have hS := hc.sound hF
  obtain ⟨E, H, pE, pH, hE, hH⟩ := h.agree.get
  obtain ⟨rho, r1, r2⟩ := itemRho_spec hf hS h.inside
  obtain ⟨s', E', H', e, iv, -, -, hE', -, hQ⟩ := run_inv hc hF hD hk hneu corner l hl
    (fun ρ' E' _ => ∀ x, divE S.g.act S.g.dx E' x - ρ' x = divE S.g.act S.g.dx E x - rhoG S s.prts x)
    (by
      intro i hi ρ ρ' E1 H J ms em hcc hP x
      rw [hm i hi] at em
      obtain rfl : ms = [] := by simpa using em
      simp only [correctorsE]
      rw [divE_ampere, ← hP x]
      linear_combination -hcc x)
    s h E H pE pH hE hH (fun _ => rfl)
  obtain ⟨rho', t1, t2⟩ := itemRho_spec hf hS iv.inside
  refine ⟨s', rho, rho', e, r1, t1, fun r p hh n hn => ?_⟩
  rw [div_nc_spec hf hE' hh hn, t2 r p hh n hn, div_nc_spec hf hE hh hn, r2 r p hh n hn]
  exact hQ _

theorem checked_spec {S : Pic.Setup} (hc : Scheme S) (hF : Fit S 2) {D : Driver} (hD : Ok D) (hk : Kinds S D) (hneu : Neutral D) (corner : R3 ℝ)
    {i : StepIn} (hi : StepOk i) (s : State) (h : Inv S s) :
    ∃ s' ge, step S D corner i s = some s' ∧ checkedStep S D corner i s = some (s', 0, ge) ∧
      ∀ M, 0 ≤ M → GaussWithin S M s' → ge ≤ M := by
  have hf := hF.fits (le_refl 2)
  have hS := hc.sound hF
  obtain ⟨E, H, pE, pH, hE, hH⟩ := h.agree.get
  obtain ⟨s', J, E', H', ms, hJ, e, iv, -, -, -, -, -, -, -, hcont⟩ := step_spec hc hF hD hk corner hi s h E H pE pH hE hH
  have hp' : PrtsInside S (fun r p => i.base.pre r p (s.prts r p)) := by
    intro r p hh q hq' d
    obtain ⟨q', h1, h2, -⟩ := pre_mem hi.pre hq'
    have := h.inside r p hh q' h1 d
    rwa [h2] at this
  obtain ⟨rm, m1, m2⟩ := itemRho_spec hf hS hp'
  obtain ⟨rp, p1, p2⟩ := itemRho_spec hf hS iv.inside
  refine ⟨s', max_err S fun r p n => div_nc S.g (s'.flds r p) n - rp r p (0, n), e, ?_, ?_⟩
  · unfold checkedStep
    simp only [Option.bind_eq_bind, m1, e, p1, Option.bind_some]
    refine congrArg some (Prod.ext rfl (Prod.ext ?_ rfl))
    refine le_antisymm (max_err_le.2 ⟨le_refl _, fun r p hh n hn => ?_⟩) max_err_nonneg
    simp only
    rw [p2 r p hh n hn, m2 r p hh n hn, divj_spec hf hJ hh hn, rhoG_pre S hi.pre]
    exact le_of_eq (abs_eq_zero.2 (hcont hneu _))
  · rintro M h0 ⟨rho, r1, r2⟩
    rw [p1] at r1
    obtain rfl := Option.some.inj r1
    exact max_err_le.2 ⟨h0, r2⟩

theorem run_append (S : Pic.Setup) (D : Driver) (corner : R3 ℝ) (l l' : List StepIn) (s : State) :
    run S D corner (l ++ l') s = (run S D corner l s).bind (run S D corner l') := by
  induction l generalizing s with
  | nil => rfl
  | cons i l ih =>
    simp only [List.cons_append, run, Option.bind_eq_bind]
    cases step S D corner i s <;> simp [ih]

/-! ### The start -/

theorem start_spec {S : Pic.Setup} (hc : Scheme S) (hF : Fit S 2) (hg : SetupFields.Ghosts S.c 2) {D : Driver} (hD : Ok D) (hk : Kinds S D)
    (corner : R3 ℝ) (R : ℕ → ℕ → InitDensity.Random) :
    ∃ s, start S D corner R = some s ∧ Inv S s ∧
      ((∀ r p pos, CellBound D (R r p).rnd (D.initial pos) 0 0) → (∀ (e : Fin 3) x, D.field (EX + e) x = 0) → GaussWithin S 0 s) := by
  have hf := hF.fits (le_refl 2)
  have hS := hc.sound hF
  obtain ⟨new, e, h1, h2, h3⟩ := setupParticles_spec hF.dx hF.pos hD hk corner
    (fun r p n => D.initial (posOf S D corner r p n)) R fun _ _ => []
  simp only [List.nil_append] at e
  obtain ⟨flds, hfl, hrep, -⟩ := SetupFields.start_spec hF (le_refl 2) hg corner D.field new
  refine ⟨⟨new, flds⟩, ?_, ⟨FieldsAgree.mk hrep.perE hrep.perH hrep.E hrep.H, h1, h2⟩, fun hneu hE0 => ?_⟩
  · unfold start
    simp only [e, hfl, Option.bind_eq_bind, Option.bind_some]
  · obtain ⟨rho, t1, t2⟩ := itemRho_spec hf hS h1
    refine ⟨rho, t1, fun r p hh n hn => ?_⟩
    rw [div_nc_spec hf hrep.E hh hn, t2 r p hh n hn]
    have hr : rhoG S new (fun d => S.c.off r p d + n d) = 0 := by
      have := rhoG_append hc (prts := fun _ _ => []) h2 (h3 fun r p n => hneu r p _)
        (fun d => S.c.off r p d + n d)
      simp only [List.nil_append] at this
      rw [this, rhoG_eq]
      simp
    have hz : ∀ (e : Fin 3) x, (SetupFields.initial S.problem ⟨S.P.dx, corner⟩ D.field (globalPrts S new)).E e x = 0 := by
      intro e x
      exact hE0 e _
    rw [hr]
    unfold divE dB
    simp only [hz]
    simp

/-! ### Numbers of particles -/

theorem get_n_near {d ppud u : ℝ} (hd : 0 ≤ d) (hp : 0 ≤ ppud) (hu : 0 ≤ u ∧ u < 1) :
    |(Setup.get_n_in_cell d ppud true u : ℝ) - d * ppud| < 1 := by
  unfold Setup.get_n_in_cell
  split_ifs with h
  · simp [h]
  · have h0 : 0 ≤ d * ppud + u := add_nonneg (mul_nonneg hd hp) hu.1
    rw [toInt_nonneg h0]
    have h1 := Int.floor_le (d * ppud + u)
    have h2 := Int.lt_floor_add_one (d * ppud + u)
    rw [abs_lt]
    constructor <;> linarith
  · simp at *

theorem setupParticles_some {S : Pic.Setup} {D : Driver} {corner : R3 ℝ} {init : ℕ → ℕ → I3 → ℕ → Setup.Npt ℝ → Setup.Npt ℝ}
    {R : ℕ → ℕ → InitDensity.Random} {prts T : ℕ → ℕ → List Push.Prt} (h : setupParticles S D corner init R prts = some T) {r p : ℕ}
    (hh : S.c.D.Has r p) : ∃ l, setupPatch S D corner (init r p) (R r p) r p = some l ∧ T r p = prts r p ++ l := by
  unfold setupParticles at h
  split_ifs at h with hs
  obtain rfl := Option.some.inj h
  obtain ⟨l, hl⟩ := Option.isSome_iff_exists.1 (hs r (List.mem_range.2 hh.1) p (List.mem_range.2 hh.2))
  exact ⟨l, hl, by simp only [hl, Option.getD_some]⟩

theorem charge_append (l l' : List Push.Prt) : charge (l ++ l') = charge l + charge l' := by
  simp [charge]

end Psc.CellInject
