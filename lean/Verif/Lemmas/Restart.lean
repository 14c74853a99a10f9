import Verif.Lemmas.BalancedPic
import Verif.Lemmas.Checkpoint
import Verif.Lemmas.SetupFields
import Verif.Spec.Restart

/-!
# Runs that are stopped and restarted
-/

namespace Psc.Restart

open Domain Ddc FieldStep Pic BalPic Spec Yee Translate

noncomputable section

theorem mapM_congr' {α β : Type} {f g : α → Option β} (l : List α) (h : ∀ a ∈ l, f a = g a) : l.mapM f = l.mapM g := by
  induction l with
  | nil => rfl
  | cons a l ih => rw [List.mapM_cons, List.mapM_cons, h a List.mem_cons_self, ih fun b hb => h b (List.mem_cons_of_mem _ hb)]

theorem exchange_congr {S : Setup} {prts prts' : ℕ → ℕ → List Push.Prt} (h : ∀ r p, S.c.D.Has r p → prts' r p = prts r p) :
    exchangePrts S prts' = exchangePrts S prts := by
  have : (fun r => Bndp.exchange S.ex (fun r p => (prts' r p).map toB) r) =
      fun r => Bndp.exchange S.ex (fun r p => (prts r p).map toB) r := by
    funext me
    unfold Bndp.exchange
    rw [mapM_congr' (List.range S.ex.D.counts.length) (g := fun r =>
      (List.range (S.ex.D.nr_patches r)).mapM fun p => Bndp.process_patch (S.ex.patch r p) ((prts r p).map toB))]
    intro r _
    refine mapM_congr' _ fun p hp => ?_
    beta_reduce
    rw [h r p (has_iff.2 (List.mem_range.1 hp))]
  unfold exchangePrts
  simp only [this]

theorem AllAgree.fields {S : Setup} {flds : Glob ℝ} (h : AllAgree S flds) : FieldsAgree S flds :=
  fun m _ h2 => h m (by unfold EX at h2; omega)

theorem AllAgree.of {S : Setup} {flds : Glob ℝ} {J E H : VF ℝ} (pJ : ∀ d, Periodic S.c (J d)) (pE : ∀ d, Periodic S.c (E d))
    (pH : ∀ d, Periodic S.c (H d)) (hJ : ∀ d : Fin 3, Holds S.c flds (JXI + d) (J d))
    (hE : ∀ d : Fin 3, Holds S.c flds (EX + d) (E d)) (hH : ∀ d : Fin 3, Holds S.c flds (HX + d) (H d)) : AllAgree S flds := by
  intro m hm
  by_cases h : m < 3
  · refine ⟨J ⟨m, h⟩, pJ _, ?_⟩
    have := hJ ⟨m, h⟩
    rwa [show JXI + ((⟨m, h⟩ : Fin 3) : ℕ) = m by unfold JXI; simp] at this
  · exact FieldsAgree.mk pE pH hE hH m (by unfold EX; omega) (by unfold EX; omega)

/-- fields that hold the same global fields are the same in all cells -/
theorem flds_of {c : Cfg} {σ τ : Glob ℝ} {J E H : VF ℝ} (hJ : ∀ d : Fin 3, Holds c σ (JXI + d) (J d))
    (hE : ∀ d : Fin 3, Holds c σ (EX + d) (E d)) (hH : ∀ d : Fin 3, Holds c σ (HX + d) (H d))
    (hJ' : ∀ d : Fin 3, Holds c τ (JXI + d) (J d)) (hE' : ∀ d : Fin 3, Holds c τ (EX + d) (E d))
    (hH' : ∀ d : Fin 3, Holds c τ (HX + d) (H d)) :
    ∀ r p, c.D.Has r p → ∀ m < 9, ∀ n, Stored c n → τ r p (m, n) = σ r p (m, n) := by
  intro r p hp m hm n hn
  by_cases h : m < 3
  · obtain ⟨d, rfl⟩ : ∃ d : Fin 3, m = JXI + d := ⟨⟨m, h⟩, by unfold JXI; simp⟩
    rw [hJ d r p hp n hn, hJ' d r p hp n hn]
  · by_cases h' : m < 6
    · obtain ⟨d, rfl⟩ : ∃ d : Fin 3, m = EX + d := ⟨⟨m - 3, by omega⟩, by unfold EX; simp only; omega⟩
      rw [hE d r p hp n hn, hE' d r p hp n hn]
    · obtain ⟨d, rfl⟩ : ∃ d : Fin 3, m = HX + d := ⟨⟨m - 6, by omega⟩, by unfold HX; simp only; omega⟩
      rw [hH d r p hp n hn, hH' d r p hp n hn]

theorem Identical.holds {S : Setup} {s s' : State} (h : Identical S s s') {m : ℕ} (hm : m < 9) {G : I3 → ℝ}
    (hG : Holds S.c s.flds m G) : Holds S.c s'.flds m G := fun r p hp n hn => by rw [h.flds r p hp m hm n hn, hG r p hp n hn]

theorem pre_inside {S : Setup} {i : Pic.StepIn} (hi : KeepsCharge i) {prts : ℕ → ℕ → List Push.Prt} (hp : PrtsInside S prts) :
    PrtsInside S fun r p => i.pre r p (prts r p) := by
  intro r p hh q hq' d
  obtain ⟨q', h1, h2, -⟩ := pre_mem hi hq'
  have := hp r p hh q' h1 d
  rwa [h2] at this

/-- Identical states are identical after a step. -/
theorem step_identical {S : Setup} {w : ℤ} (hF : Fit S w) (hw : 2 ≤ w) (hS : SoundG S) {i i' : Pic.StepIn} (hi : KeepsCharge i)
    (hpre : i'.pre = i.pre) (hc : corrs i' = corrs i) {s s' : State} (hp : PrtsInside S s.prts) (ha : AllAgree S s.flds)
    (h : Identical S s s') :
    ∃ t t', Pic.step S i s = some t ∧ Pic.step S i' s' = some t' ∧ Identical S t t' ∧ PrtsInside S t.prts ∧ AllAgree S t.flds := by
  obtain ⟨E, H, pE, pH, hE, hH⟩ := ha.fields.get
  have hE' : ∀ d : Fin 3, Holds S.c s'.flds (EX + d) (E d) := fun d => h.holds (by have := d.2; unfold EX; omega) (hE d)
  have hH' : ∀ d : Fin 3, Holds S.c s'.flds (HX + d) (H d) := fun d => h.holds (by have := d.2; unfold HX; omega) (hH d)
  have hp' := pre_inside hi hp
  have hpush : ∀ r p, S.c.D.Has r p →
      Push.pushAll S.cfg S.P (emOf (s'.flds r p)) (i'.pre r p (s'.prts r p)) =
        Push.pushAll S.cfg S.P (emOf (s.flds r p)) (i.pre r p (s.prts r p)) := by
    intro r p hh
    rw [h.prts r p hh, hpre]
    refine (hS.stor _ (hp' r p hh)).2 _ _ fun m a b c hst => ?_
    rw [same_storage hE' hH' hh m a b c hst, same_storage hE hH hh m a b c hst]
  obtain ⟨T, h1, h2, -⟩ := exchange_global hF (push_near' hF s.flds hp')
  have h1' : exchangePrts S (pushPrts S (fun r p => i'.pre r p (s'.prts r p)) s'.flds).1 = some T := by
    rw [← h1]
    refine exchange_congr fun r p hh => ?_
    show (Push.pushAll _ _ _ _).1 = (Push.pushAll _ _ _ _).1
    rw [hpush r p hh]
  obtain ⟨rho, r1, r2⟩ := rhoM_global hF hw hS h2
  have hJ : (fun d : Fin 3 => total S.c (pushPrts S (fun r p => i'.pre r p (s'.prts r p)) s'.flds).2 (JXI + d)) =
      fun d : Fin 3 => total S.c (pushPrts S (fun r p => i.pre r p (s.prts r p)) s.flds).2 (JXI + d) := by
    funext d x
    unfold total
    refine Finset.sum_congr rfl fun rp hrp => Finset.sum_congr rfl fun n _ => ?_
    have hh : S.c.D.Has rp.1 rp.2 := mem_patches.1 hrp
    have : (pushPrts S (fun r p => i'.pre r p (s'.prts r p)) s'.flds).2 rp.1 rp.2 =
        (pushPrts S (fun r p => i.pre r p (s.prts r p)) s.flds).2 rp.1 rp.2 := by
      show depOf (Push.pushAll _ _ _ _).2 = depOf (Push.pushAll _ _ _ _).2
      rw [hpush _ _ hh]
    rw [this]
  set f : CorrIn → Corrector ℝ := fun m =>
    { walls := ⟨fun _ _ _ => false, fun _ _ _ => false⟩, diffusion_ := m.diffusion_, loop := m.loop, rho := rho, junk := m.junk }
    with hf
  have hms : ∀ l : List CorrIn, ∀ m ∈ l.map f,
      Owns S.c m.rho 0 (S.problem.sumAt (Push.rho S.depM S.P (globalPrts S T)) 0) ∧ m.walls.None := by
    intro l m hm
    obtain ⟨m', hm', rfl⟩ := List.mem_map.1 hm
    exact ⟨r2, fun _ _ _ => ⟨rfl, rfl⟩⟩
  have hcorr : ∀ E0 : VF ℝ, correctorsE S.g (S.problem.sumAt (Push.rho S.depM S.P (globalPrts S T)) 0) (i'.ms.map f) E0 =
      correctorsE S.g (S.problem.sumAt (Push.rho S.depM S.P (globalPrts S T)) 0) (i.ms.map f) E0 := by
    intro E0
    rw [← gauss_eq S hF.dt.ne' _ i.ms f (fun _ => ⟨rfl, rfl⟩), ← gauss_eq S hF.dt.ne' _ i'.ms f (fun _ => ⟨rfl, rfl⟩)]
    exact congrArg (fun l => S.problem.gauss _ l E0) hc
  obtain ⟨τ, f1, f2, f3, f4, f5, f6⟩ := fieldStep_spec' (hF.fits hw)
    (pushPrts S (fun r p => i.pre r p (s.prts r p)) s.flds).2 (Fit.sums_periodic S _ 0) (i.ms.map f) (hms _)
    rfl rfl rfl rfl pE pH hE hH
  obtain ⟨τ', g1, g2, g3, -, -, g6⟩ := fieldStep_spec' (hF.fits hw)
    (pushPrts S (fun r p => i'.pre r p (s'.prts r p)) s'.flds).2 (Fit.sums_periodic S _ 0) (i'.ms.map f) (hms _)
    rfl rfl rfl rfl pE pH hE' hH'
  rw [hJ, hcorr] at g2 g3
  have g6' : ∀ d : Fin 3, Holds S.c τ' (JXI + d) (total S.c (pushPrts S (fun r p => i.pre r p (s.prts r p)) s.flds).2 (JXI + d)) :=
    fun d => by rw [← congrFun hJ d]; exact g6 d
  refine ⟨⟨T, τ⟩, ⟨T, τ'⟩, ?_, ?_, ⟨fun _ _ _ => rfl, flds_of f6 f2 f3 g6' g2 g3⟩, h2,
    AllAgree.of (fun d => total_periodic _ _ _) f4 f5 f6 f2 f3⟩
  · unfold Pic.step
    simp only [Option.bind_eq_bind]
    rw [h1, Option.bind_some, r1, Option.bind_some, f1]
    rfl
  · unfold Pic.step
    simp only [Option.bind_eq_bind]
    rw [h1', Option.bind_some, r1, Option.bind_some, g1]
    rfl

/-! ### Load balancing -/

theorem balance_fst {old D D' : Decomp} {loads : List ℝ} {α β : Type} {prts prts' : ℕ → ℕ → List α} {flds flds' : ℕ → ℕ → β}
    {x x' : (ℕ → ℕ → Option (List α)) × (ℕ → ℕ → Option β)} (h : Balance.balance old loads prts flds = some (D, x))
    (h' : Balance.balance old loads prts' flds' = some (D', x')) : D' = D := by
  unfold Balance.balance at h h'
  cases hb : Balance.best_mapping old.counts.length loads with
  | none => rw [hb] at h; simp at h
  | some counts =>
    rw [hb] at h h'
    simp only at h h'
    split_ifs at h h' with hc
    · simp only [Option.some.injEq, Prod.mk.injEq] at h h'
      exact h'.1.symm.trans h.1
    · simp only [Option.some.injEq, Prod.mk.injEq] at h h'
      exact h'.1.symm.trans h.1

theorem rebalance_fst {S : Setup} {f : ℝ} (hf : 0 < f) {ct : CompTime} {s : State} {D : Decomp} {t : State}
    (h : rebalance f ct (S, s) = some (withDecomp S D, t)) :
    ∃ x, Balance.balance S.c.D ((Bndp.allPatches S.c.D).map fun rp =>
      (((s.prts rp.1 rp.2).length : ℝ) + f * S.c.ldims 0 * S.c.ldims 1 * S.c.ldims 2)) s.prts s.flds = some (D, x) := by
  unfold rebalance at h
  simp only [gather_eq S hf.le, Option.bind_eq_bind, Option.bind_some] at h
  cases hb : Balance.balance S.c.D ((Bndp.allPatches S.c.D).map fun rp =>
      (((s.prts rp.1 rp.2).length : ℝ) + f * S.c.ldims 0 * S.c.ldims 1 * S.c.ldims 2)) s.prts s.flds with
  | none => rw [hb] at h; simp at h
  | some y =>
    rw [hb] at h
    simp only [Option.bind_some] at h
    split_ifs at h with hc
    simp only [Option.some.injEq, Prod.mk.injEq] at h
    have : y.1 = D := congrArg (fun S : Setup => S.c.D) h.1
    exact ⟨y.2, by rw [← this]⟩

theorem balance_identical {S : Setup} {w : ℤ} (hF : Fit S w) (hb : AllBusy S) {f : ℝ} (hf : 0 < f) {i i' : BStepIn}
    (hi : i'.bal = i.bal) {s s' : State} (h : Identical S s s') :
    ∃ D t t', (if i.bal then rebalance f i.comp_time (S, s) else some (S, s)) = some (withDecomp S D, t) ∧
      (if i'.bal then rebalance f i'.comp_time (S, s') else some (S, s')) = some (withDecomp S D, t') ∧ Moved S D s t ∧
      Identical (withDecomp S D) t t' := by
  obtain ⟨D, t, e, m⟩ := balance_part hF hb hf i s
  obtain ⟨D', t', e', m'⟩ := balance_part hF hb hf i' s'
  have hD : D' = D := by
    rw [hi] at e'
    split_ifs at e e' with hbal
    · obtain ⟨x, q⟩ := rebalance_fst hf e
      obtain ⟨x', q'⟩ := rebalance_fst hf e'
      have hl : ((Bndp.allPatches S.c.D).map fun rp =>
          (((s'.prts rp.1 rp.2).length : ℝ) + f * S.c.ldims 0 * S.c.ldims 1 * S.c.ldims 2)) =
          (Bndp.allPatches S.c.D).map fun rp =>
          (((s.prts rp.1 rp.2).length : ℝ) + f * S.c.ldims 0 * S.c.ldims 1 * S.c.ldims 2) := by
        refine List.map_congr_left fun rp hrp => ?_
        rw [h.prts rp.1 rp.2 (Bndp.mem_allPatches.1 hrp)]
      rw [hl] at q'
      exact balance_fst q q'
    · simp only [Option.some.injEq, Prod.mk.injEq] at e e'
      have a := congrArg (fun S : Setup => S.c.D) e.1
      have b := congrArg (fun S : Setup => S.c.D) e'.1
      exact b.symm.trans a
  subst hD
  refine ⟨D', t, t', e, e', m, ?_⟩
  have key : ∀ r p, D'.Has r p → ∃ rp : ℕ × ℕ, S.c.D.Has rp.1 rp.2 ∧ t.prts r p = s.prts rp.1 rp.2 ∧ t.flds r p = s.flds rp.1 rp.2 ∧
      t'.prts r p = s'.prts rp.1 rp.2 ∧ t'.flds r p = s'.flds rp.1 rp.2 := by
    intro r p hh
    obtain ⟨rp, a1, a2, a3, a4⟩ := m.from_ r p hh
    obtain ⟨rp', b1, b2, b3, b4⟩ := m'.from_ r p hh
    have o := (Props.C25_idx3_owner S.c.D hF.valid.valid _ _ a1).2
    have o' := (Props.C25_idx3_owner S.c.D hF.valid.valid _ _ b1).2
    rw [a2] at o
    rw [b2, o] at o'
    have e : rp' = rp := by
      have := Option.some.inj o'
      exact Prod.ext (congrArg Prod.fst this).symm (congrArg Prod.snd this).symm
    subst e
    exact ⟨rp', a1, a3, a4, b3, b4⟩
  constructor
  · intro r p hh
    obtain ⟨rp, q1, q2, -, q3, -⟩ := key r p hh
    rw [q2, q3, h.prts _ _ q1]
  · intro r p hh m' hm n hn
    obtain ⟨rp, q1, -, q2, -, q3⟩ := key r p hh
    rw [q2, q3, h.flds _ _ q1 m' hm n hn]

/-! ### The time loop -/

/-- what is kept from step to step -/
structure Good (w : ℤ) (x : Sim) : Prop where
  fit : Fit x.S w
  sound : SoundG x.S
  busy : AllBusy x.S
  inside : PrtsInside x.S x.s.prts
  agree : AllAgree x.S x.s.flds

/-- two simulations in identical states -/
structure Same (x x' : Sim) : Prop where
  timestep : x'.timestep = x.timestep
  S : x'.S = x.S
  s : Identical x.S x.s x'.s

theorem Same.refl (x : Sim) : Same x x := ⟨rfl, rfl, fun _ _ _ => rfl, fun _ _ _ _ _ _ _ => rfl⟩

theorem Same.trans {x y z : Sim} (h : Same x y) (h' : Same y z) : Same x z where
  timestep := h'.timestep.trans h.timestep
  S := h'.S.trans h.S
  s := by
    have e := h.S
    constructor
    · intro r p hh
      rw [h'.s.prts r p (e ▸ hh), h.s.prts r p hh]
    · intro r p hh m hm n hn
      rw [h'.s.flds r p (e ▸ hh) m hm n (e ▸ hn), h.s.flds r p hh m hm n hn]

theorem _root_.Psc.BalPic.Moved.allAgree {S : Setup} {D : Decomp} {s s' : State} (h : Moved S D s s')
    (ha : AllAgree S s.flds) : AllAgree (withDecomp S D) s'.flds := by
  intro m hm
  obtain ⟨G, g1, g2⟩ := ha m hm
  exact ⟨G, h.periodic g1, h.holds g2⟩

theorem integrate_same {w : ℤ} (hw : 2 ≤ w) {f : ℝ} (hf : 0 < f) {inp inp' : ℕ → BStepIn} (hi : ∀ t, KeepsCharge (inp t).step)
    (hs : ∀ t, SameInput (inp t) (inp' t)) (n : ℕ) {x x' : Sim} (hx : Good w x) (h : Same x x') :
    ∃ y y', integrate f inp n x = some y ∧ integrate f inp' n x' = some y' ∧ Good w y ∧ Same y y' ∧
      y.timestep = x.timestep + n ∧ Redistributed x.S y.S := by
  induction n generalizing x x' with
  | zero => exact ⟨x, x', rfl, rfl, hx, h, rfl, .refl hx.fit.valid.valid hx.busy⟩
  | succ n ih =>
    obtain ⟨tx, S, s⟩ := x
    obtain ⟨tx', S', s'⟩ := x'
    obtain ⟨ht, hS, hid⟩ := h
    simp only at ht hS hid
    subst ht hS
    obtain ⟨D, a, a', e1, e1', m, hid1⟩ :=
      balance_identical hx.fit hx.busy hf (hs (tx' + 1)).bal hid
    obtain ⟨b, b', e2, e2', hid2, hp2, ha2⟩ := step_identical (m.fit hx.fit) hw (m.soundG hx.sound) (hi (tx' + 1))
      (hs (tx' + 1)).pre (hs (tx' + 1)).corrs (m.inside hx.inside) (m.allAgree hx.agree) hid1
    have st := step_of e1 e2
    have st' := step_of e1' e2'
    obtain ⟨y, y', q1, q2, q3, q4, q5, q6⟩ := ih (x := ⟨tx' + 1, withDecomp S' D, b⟩) (x' := ⟨tx' + 1, withDecomp S' D, b'⟩)
      ⟨m.fit hx.fit, m.soundG hx.sound, m.busy' hx.busy, hp2, ha2⟩ ⟨rfl, rfl, hid2⟩
    refine ⟨y, y', ?_, ?_, q3, q4, ?_, m.redistributed.trans q6⟩
    · simp only [integrate, st, Option.bind_eq_bind, Option.bind_some]; exact q1
    · simp only [integrate, st', Option.bind_eq_bind, Option.bind_some]; exact q2
    · rw [q5]; show tx' + 1 + n = tx' + (n + 1); omega

theorem integrate_add {f : ℝ} {inp : ℕ → BStepIn} (n m : ℕ) (x : Sim) :
    integrate f inp (n + m) x = (integrate f inp n x).bind (integrate f inp m) := by
  induction n generalizing x with
  | zero => simp [integrate]
  | succ n ih =>
    rw [show n + 1 + m = (n + m) + 1 by omega]
    simp only [integrate, Option.bind_eq_bind]
    cases h : BalPic.step f (inp (x.timestep + 1)) (x.S, x.s) with
    | none => rfl
    | some y => simp only [Option.bind_some, ih]

/-! ### Reading the checkpoint -/

theorem ofCp_toCp (q : Push.Prt) : ofCp (toCp q) = q := by
  cases q; simp [ofCp, toCp]

theorem setup_counts (deck : Cp.Deck ℝ) (pr : Program) (counts : List ℕ) : (setup deck pr counts).c.D.counts = counts := rfl

theorem ranks_holds {deck : Cp.Deck ℝ} {pr : Program} {counts : List ℕ} {x : Sim} (hS : x.S = setup deck pr counts) :
    Cp.Holds deck counts x.timestep (ranksOf (deck.grid counts x.timestep) x) where
  len := by simp [ranksOf, hS, setup_counts]
  grid := by
    intro r s hs
    simp only [ranksOf, List.getElem?_map, Option.map_eq_some_iff] at hs
    obtain ⟨a, ha, rfl⟩ := hs
    obtain ⟨h1, h2⟩ := List.getElem?_eq_some_iff.1 ha
    simp only [List.getElem_range] at h2
    rw [← h2]
  prts := by
    intro s hs
    simp only [ranksOf, List.mem_map, List.mem_range] at hs
    obtain ⟨r, hr, rfl⟩ := hs
    simp only [hS, setup_counts, List.length_map, List.length_range]
    simp [Cp.Deck.grid, Cp.mkGrid]
  flds := by
    intro s hs
    simp only [ranksOf, List.mem_map, List.mem_range] at hs
    obtain ⟨r, hr, rfl⟩ := hs
    simp only [hS, setup_counts, List.length_map, List.length_range]
    simp [Cp.Deck.grid, Cp.mkGrid]

theorem restart_spec {w : ℤ} (hw : 2 ≤ w) {deck : Cp.Deck ℝ} {pr : Program} {counts : List ℕ} {x : Sim}
    (hS : x.S = setup deck pr counts) (hx : Good w x) {T : List (Cp.Rank ℝ)} (hT : T.length = counts.length) (junk : Cp.Patch ℝ)
    (fresh : ℕ → I3 → ℝ) :
    ∃ y, restart pr deck.curve junk fresh (Cp.write_checkpoint 9 (ranksOf (deck.grid counts x.timestep) x)) T = some y ∧
      Same x y := by
  have hH := ranks_holds hS
  have hok : deck.Ok counts := by
    have hv := hx.fit.valid.valid
    rw [hS] at hv
    exact ⟨hv.curve_ok, hv.sum⟩
  have hc : x.S.c.D.counts = counts := by rw [hS]; rfl
  have hne : ranksOf (deck.grid counts x.timestep) x ≠ [] := by
    intro h0
    have := congrArg List.length h0
    rw [hH.len] at this
    have h1 := hx.busy.1
    rw [hc] at h1
    simp only [List.length_nil] at this
    omega
  -- what is in the objects after reading
  obtain ⟨R, eR, hhead, hprts, hflds⟩ : ∃ R, Cp.read_checkpoint deck.curve 9 junk fresh
      (Cp.write_checkpoint 9 (ranksOf (deck.grid counts x.timestep) x)) T = some R ∧
      (∃ s0 : Cp.Rank ℝ, R.head? = some s0 ∧ s0.grid.timestep = x.timestep ∧ setupOf pr s0.grid = x.S) ∧
      (∀ r p, x.S.c.D.Has r p → (stateOf R).prts r p = x.s.prts r p) ∧
      ∀ r p, x.S.c.D.Has r p → ∀ m < 9, ∀ n, Interior x.S.c n → (stateOf R).flds r p (m, n) = x.s.flds r p (m, n) := by
    have hget : ∀ r, r < counts.length → (ranksOf (deck.grid counts x.timestep) x)[r]? = some
        { grid := deck.grid counts x.timestep r
          mprts := (List.range (counts.getD r 0)).map fun p => (x.s.prts r p).map toCp
          mflds := (List.range (counts.getD r 0)).map fun p m n => x.s.flds r p (m, n) } := by
      intro r hr
      simp only [ranksOf, hc, List.getElem?_map, List.getElem?_range hr, Option.map_some]
    generalize ranksOf (deck.grid counts x.timestep) x = W at hH hne hget
    cases W with
    | nil => exact absurd rfl hne
    | cons s0 W =>
      have hTl : T.length = (s0 :: W).length := by rw [hT, hH.len]
      refine ⟨_, Cp.read_write 9 hH T hTl junk fresh, ?_, ?_, ?_⟩
      · cases T with
        | nil => simp at hTl
        | cons t0 T =>
          refine ⟨_, rfl, ?_, ?_⟩
          · show s0.grid.timestep = _
            rw [hH.head]; rfl
          · rw [hS]
            show setupOf pr (Cp.restoredGrid s0.grid t0.grid junk) = _
            rw [hH.head]; rfl
      · intro r p hh
        have hr : r < counts.length := by rw [← hc]; exact hh.1
        have hp : p < counts.getD r 0 := by rw [← hc]; exact hh.2
        have hrT : r < T.length := by omega
        simp only [stateOf, List.getElem?_zipWith, hget r hr, List.getElem?_eq_getElem hrT, Option.bind_some]
        simp only [Cp.restoredRank, List.getElem?_map, List.getElem?_range hp, Option.map_some, Option.getD_some, List.map_map]
        conv_rhs => rw [← List.map_id (x.s.prts r p)]
        exact List.map_congr_left fun q _ => ofCp_toCp q
      · intro r p hh m hm n hn
        have hr : r < counts.length := by rw [← hc]; exact hh.1
        have hp : p < counts.getD r 0 := by rw [← hc]; exact hh.2
        have hrT : r < T.length := by omega
        have hin := Cp.restored_interior 9 hok hH r _ T[r] (hget r hr) junk fresh
        simp only [stateOf, List.getElem?_zipWith, hget r hr, List.getElem?_eq_getElem hrT, Option.bind_some]
        rw [List.forall₂_iff_get] at hin
        obtain ⟨hl, hin⟩ := hin
        simp only [List.length_map, List.length_range] at hl
        have := hin p (by rw [hl]; exact hp) (by simpa using hp) m hm n (by
          intro d
          have := hn d
          rw [hS] at this
          exact this)
        rw [List.getElem?_eq_getElem (by rw [hl]; exact hp), Option.getD_some]
        refine this.trans ?_
        simp only [List.get_eq_getElem, List.getElem_map, List.getElem_range]
  obtain ⟨s0, eh, ht, hset⟩ := hhead
  have h := hx.fit.fits hw
  obtain ⟨σ1, e1, a1, b1⟩ := fillAll_spec h HX (HX + 3) (by omega) (stateOf R).flds
  obtain ⟨σ2, e2, a2, b2⟩ := fillAll_spec h JXI (JXI + 3) (by omega) σ1
  obtain ⟨σ3, e3, a3, b3⟩ := fillAll_spec h EX (EX + 3) (by omega) σ2
  refine ⟨⟨x.timestep, x.S, (stateOf R).prts, σ3⟩, ?_, rfl, rfl, hprts, ?_⟩
  · simp only [restart, eR, eh, Option.bind_eq_bind, Option.bind_some, hset, ht, SetupFields.pre_first_step, e1, e2, e3]
  · intro r p hh m hm n hn
    show σ3 r p (m, n) = _
    obtain ⟨G, pG, hG⟩ := hx.agree m hm
    have own : Owns x.S.c (stateOf R).flds m G := fun r p hp n hn => by
      rw [hflds r p hp m hm n hn, hG r p hp n (interior_stored hx.fit.valid hn)]
    rw [hG r p hh n hn]
    by_cases c1 : m < 3
    · rw [b3 m (by unfold EX; omega) r p hh]
      exact a2 m G (by unfold JXI; omega) (by unfold JXI; omega) pG (fun r p hp n hn => by
        rw [b1 m (by unfold HX; omega) r p hp, own r p hp n hn]) r p hh n hn
    · by_cases c2 : m < 6
      · exact a3 m G (by unfold EX; omega) (by unfold EX; omega) pG (fun r p hp n hn => by
          rw [b2 m (by unfold JXI; omega) r p hp, b1 m (by unfold HX; omega) r p hp, own r p hp n hn]) r p hh n hn
      · rw [b3 m (by unfold EX; omega) r p hh, b2 m (by unfold JXI; omega) r p hh]
        exact a1 m G (by unfold HX; omega) (by unfold HX; omega) pG own r p hh n hn

theorem setup_redistributed {deck : Cp.Deck ℝ} {pr : Program} {counts : List ℕ} {S' : Setup}
    (h : Redistributed (setup deck pr counts) S') : S' = setup deck pr S'.c.D.counts := by
  generalize hc : S'.c.D.counts = c'
  rw [h.rest, hc]
  rfl

/-! ### Any number of restarts -/

theorem Good.of_same {w : ℤ} {x y : Sim} (hx : Good w x) (h : Same x y) : Good w y := by
  obtain ⟨-, hS, hs⟩ := h
  refine ⟨hS ▸ hx.fit, hS ▸ hx.sound, hS ▸ hx.busy, ?_, ?_⟩
  · rw [hS]
    intro r p hh q hq
    rw [hs.prts r p hh] at hq
    exact hx.inside r p hh q hq
  · rw [hS]
    intro m hm
    obtain ⟨G, g1, g2⟩ := hx.agree m hm
    exact ⟨G, g1, hs.holds hm g2⟩

theorem life_same {w : ℤ} (hw : 2 ≤ w) {deck : Cp.Deck ℝ} {pr : Program} {f : ℝ} (hf : 0 < f) {inp : ℕ → BStepIn}
    (hi : ∀ t, KeepsCharge (inp t).step) (l : List Stop) {counts : List ℕ} {x x' : Sim} (hS : x.S = setup deck pr counts)
    (hx : Good w x) (h : Same x x') (hl : ∀ a ∈ l, (∀ t, SameInput (inp t) (a.inp t)) ∧ a.T.length = counts.length) :
    ∃ y y', integrate f inp ((l.map Stop.steps).sum) x = some y ∧
      life pr deck.curve deck.grid f l x' = some y' ∧ Good w y ∧ Same y y' ∧
      y.timestep = x.timestep + (l.map Stop.steps).sum ∧ Redistributed x.S y.S := by
  induction l generalizing x x' counts with
  | nil => exact ⟨x, x', rfl, rfl, hx, h, rfl, .refl hx.fit.valid.valid hx.busy⟩
  | cons a l ih =>
    obtain ⟨ha, haT⟩ := hl a List.mem_cons_self
    obtain ⟨u, u', e1, e1', gu, su, tu, ru⟩ := integrate_same hw hf hi ha a.steps hx h
    have hu : u'.S = setup deck pr u'.S.c.D.counts := by
      rw [su.S]
      rw [hS] at ru
      exact setup_redistributed ru
    have hcl : u'.S.c.D.counts.length = counts.length := by
      rw [su.S, ru.ranks, hS]; rfl
    obtain ⟨v, ev, sv⟩ := restart_spec hw hu (gu.of_same su) (haT.trans hcl.symm) a.junk a.fresh
    obtain ⟨y, y', q1, q2, q3, q4, q5, q6⟩ := ih (x := u) (x' := v) (counts := u'.S.c.D.counts) (by rw [← su.S]; exact hu) gu
      (su.trans sv) fun b hb => ⟨(hl b (List.mem_cons_of_mem _ hb)).1, (hl b (List.mem_cons_of_mem _ hb)).2.trans hcl.symm⟩
    refine ⟨y, y', ?_, ?_, q3, q4, ?_, ru.trans q6⟩
    · rw [List.map_cons, List.sum_cons, integrate_add, e1]; exact q1
    · simp only [life, e1', ev, Option.bind_eq_bind, Option.bind_some]; exact q2
    · rw [q5, tu, List.map_cons, List.sum_cons]; omega

end

end Psc.Restart
