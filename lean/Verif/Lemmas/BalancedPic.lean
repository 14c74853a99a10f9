import Verif.Lemmas.Serial
import Verif.Props.Balance
import Verif.Spec.BalancedPic

/-!
# Runs with load balancing
-/

namespace Psc.BalPic

open Domain Ddc FieldStep Pic Spec Yee

noncomputable section

/-- every patch of the new decomposition has the contents of the patch at the same place of the old one -/
structure Moved (S : Setup) (D : Decomp) (s s' : State) : Prop where
  np : D.np = S.c.D.np
  bc : D.bc = S.c.D.bc
  curve : D.curve = S.c.D.curve
  valid : D.Valid
  ranks : D.counts.length = S.c.D.counts.length
  busy : ∀ n ∈ D.counts, 1 ≤ n
  from_ : ∀ r' p', D.Has r' p' → ∃ rp : ℕ × ℕ, S.c.D.Has rp.1 rp.2 ∧ S.c.D.idx3 rp.1 rp.2 = D.idx3 r' p' ∧
    s'.prts r' p' = s.prts rp.1 rp.2 ∧ s'.flds r' p' = s.flds rp.1 rp.2

theorem mapM_some' {α β : Type} (f : α → Option β) (g : α → β) (l : List α) (h : ∀ a ∈ l, f a = some (g a)) :
    l.mapM f = some (l.map g) := by
  induction l with
  | nil => rfl
  | cons a l ih =>
    rw [List.mapM_cons, h a List.mem_cons_self, ih fun b hb => h b (List.mem_cons_of_mem _ hb)]
    rfl

theorem gather_eq (S : Setup) {f : ℝ} (hf : 0 ≤ f) (ct : CompTime) (prts : ℕ → ℕ → List Push.Prt) :
    gather_loads S f ct prts = some ((Bndp.allPatches S.c.D).map fun rp =>
      ((prts rp.1 rp.2).length + f * S.c.ldims 0 * S.c.ldims 1 * S.c.ldims 2)) := by
  unfold gather_loads
  rw [mapM_some' _ (fun r => (List.range (S.c.D.nr_patches r)).map fun p =>
    ((prts r p).length + f * S.c.ldims 0 * S.c.ldims 1 * S.c.ldims 2))]
  · simp only [Option.bind_eq_bind, Option.bind_some, Option.some.injEq]
    unfold Bndp.allPatches
    rw [List.map_flatMap, ← List.flatMap_def]
    refine List.flatMap_congr fun r _ => ?_
    rw [List.map_map]; rfl
  · intro r _
    unfold get_loads
    refine mapM_some' _ _ _ fun p _ => ?_
    rw [if_pos hf]

theorem length_allPatches (D : Decomp) : (Bndp.allPatches D).length = D.counts.sum := by
  unfold Bndp.allPatches
  rw [List.length_flatMap]
  simp only [List.length_map, List.length_range, Ddc.nr_patches_eq]
  congr 1
  apply List.ext_getElem (by simp)
  intro i h1 h2
  simp [List.getD_eq_getElem?_getD, h2]

theorem rebalance_spec {S : Setup} (hv : S.c.D.Valid) (hpos : ∀ d, 0 < S.c.ldims d) (hb : 0 < S.c.D.counts.length)
    (hn : S.c.D.counts.length ≤ S.c.D.counts.sum) {f : ℝ} (hf : 0 < f) (ct : CompTime) (s : State) :
    ∃ D s', rebalance f ct (S, s) = some (withDecomp S D, s') ∧ Moved S D s s' := by
  set loads := (Bndp.allPatches S.c.D).map fun rp =>
      (((s.prts rp.1 rp.2).length : ℝ) + f * S.c.ldims 0 * S.c.ldims 1 * S.c.ldims 2) with hloads
  have hlen : loads.length = S.c.D.counts.sum := by rw [hloads, List.length_map, length_allPatches]
  have hl : ∀ x ∈ loads, 0 < x := by
    intro x hx
    obtain ⟨rp, -, rfl⟩ := List.mem_map.1 hx
    have h0 : (0 : ℝ) < S.c.ldims 0 := by exact_mod_cast hpos 0
    have h1 : (0 : ℝ) < S.c.ldims 1 := by exact_mod_cast hpos 1
    have h2 : (0 : ℝ) < S.c.ldims 2 := by exact_mod_cast hpos 2
    positivity
  have hne : loads ≠ [] := by
    intro e
    rw [e] at hlen
    simp only [List.length_nil] at hlen
    omega
  obtain ⟨D, prts', flds', e, v, h1, h2, h3, h4, h5, h6⟩ := Props.C31_balance S.c.D hv loads (fun x hx => (hl x hx).le)
    (loads.getLast hne) (List.getLast?_eq_getLast_of_ne_nil hne) (hl _ (List.getLast_mem hne)) (by rw [hlen, hv.sum]) hb (by omega)
    s.prts s.flds
  have key : ∀ r' p', D.Has r' p' → ∃ rp : ℕ × ℕ, S.c.D.Has rp.1 rp.2 ∧ S.c.D.idx3 rp.1 rp.2 = D.idx3 r' p' ∧
      prts' r' p' = some (s.prts rp.1 rp.2) ∧ flds' r' p' = some (s.flds rp.1 rp.2) := by
    intro r' p' hh
    obtain ⟨hg, ho⟩ := Props.C25_idx3_owner D v r' p' hh
    have hg' : S.c.D.InGrid (D.idx3 r' p') := fun d => by rw [← h1]; exact hg d
    obtain ⟨r, p, r2, p2, o1, o2, q1, q2⟩ := h6 _ hg'
    rw [ho] at o2
    simp only [Option.some.injEq, Prod.mk.injEq] at o2
    obtain ⟨rfl, rfl⟩ := o2
    obtain ⟨r3, p3, o3, o4, o5⟩ := Props.C25_owner_idx3 S.c.D hv _ hg'
    rw [o1] at o3
    simp only [Option.some.injEq, Prod.mk.injEq] at o3
    obtain ⟨rfl, rfl⟩ := o3
    exact ⟨(r, p), o4, o5, q1, q2⟩
  refine ⟨D, ⟨fun r p => (prts' r p).getD [], fun r p => (flds' r p).getD fun _ => 0⟩, ?_, h1, h2, h3, v, h4, h5, ?_⟩
  · unfold rebalance
    simp only [gather_eq S hf.le, Option.bind_eq_bind, Option.bind_some]
    rw [← hloads, e]
    simp only [Option.bind_some]
    rw [if_pos]
    intro r hr p hp
    obtain ⟨rp, -, -, q1, q2⟩ := key r p (has_iff.2 (List.mem_range.1 hp))
    rw [q1, q2]
    exact ⟨rfl, rfl⟩
  · intro r' p' hh
    obtain ⟨rp, q0, q1, q2, q3⟩ := key r' p' hh
    refine ⟨rp, q0, q1, ?_, ?_⟩
    · simp only [q2, Option.getD_some]
    · simp only [q3, Option.getD_some]

namespace Moved

variable {S : Setup} {D : Decomp} {s s' : State} (h : Moved S D s s') (hv : S.c.D.Valid)

include h

theorem fit {w : ℤ} (hF : Fit S w) : Fit (withDecomp S D) w where
  valid := ⟨h.valid, hF.valid.ibn⟩
  pos := hF.pos
  inv := by
    intro d hd
    have := hF.inv d hd
    exact ⟨this.1, by show D.np d = 1; rw [h.np]; exact this.2.1, this.2.2⟩
  act := by
    intro d hd
    have := hF.act d hd
    exact ⟨by show D.bc d = true; rw [h.bc]; exact this.1, this.2⟩
  gdims := by
    intro d hd
    have := hF.gdims d hd
    show 1 < (D.np d : ℤ) * _
    rw [h.np]; exact this
  dx := hF.dx
  dt := hF.dt

theorem gdims : (withDecomp S D).c.gdims = S.c.gdims := by
  funext d
  show (D.np d : ℤ) * _ = _
  rw [h.np]; rfl

theorem wrap : FieldStep.wrap (withDecomp S D).c = FieldStep.wrap S.c := by
  funext x d
  unfold FieldStep.wrap
  rw [h.gdims]
  show (if D.bc d then _ else _) = _
  rw [h.bc]

theorem problem : (withDecomp S D).problem = S.problem := by
  unfold Setup.problem
  rw [h.gdims]
  show Serial.Problem.mk _ D.bc _ _ _ = _
  rw [h.bc]; rfl

/-- the patch the contents of a patch come from -/
theorem get : ∃ e : ℕ × ℕ → ℕ × ℕ, ∀ rp : ℕ × ℕ, D.Has rp.1 rp.2 → S.c.D.Has (e rp).1 (e rp).2 ∧
    S.c.off (e rp).1 (e rp).2 = (withDecomp S D).c.off rp.1 rp.2 ∧ S.c.D.idx3 (e rp).1 (e rp).2 = D.idx3 rp.1 rp.2 ∧
    s'.prts rp.1 rp.2 = s.prts (e rp).1 (e rp).2 ∧ s'.flds rp.1 rp.2 = s.flds (e rp).1 (e rp).2 := by
  classical
  refine ⟨fun rp => if hh : D.Has rp.1 rp.2 then (h.from_ _ _ hh).choose else rp, fun rp hh => ?_⟩
  simp only [hh, dif_pos]
  obtain ⟨h1, h2, h3, h4⟩ := (h.from_ _ _ hh).choose_spec
  refine ⟨h1, ?_, h2, h3, h4⟩
  funext d
  unfold Cfg.off
  rw [h2]
  rfl

include hv in
theorem patches {e : ℕ × ℕ → ℕ × ℕ} (he : ∀ rp : ℕ × ℕ, D.Has rp.1 rp.2 → S.c.D.Has (e rp).1 (e rp).2 ∧
    S.c.D.idx3 (e rp).1 (e rp).2 = D.idx3 rp.1 rp.2) :
    ((Bndp.allPatches D).map e).Perm (Bndp.allPatches S.c.D) := by
  refine (List.perm_ext_iff_of_nodup ?_ (Bndp.nodup_allPatches _)).2 ?_
  · refine List.Nodup.map_on ?_ (Bndp.nodup_allPatches _)
    rintro ⟨r, p⟩ hx ⟨r2, p2⟩ hy hxy
    have hx := Bndp.mem_allPatches.1 hx
    have hy := Bndp.mem_allPatches.1 hy
    have e1 := (he (r, p) hx).2
    have e2 := (he (r2, p2) hy).2
    rw [hxy, e2] at e1
    have o1 := (Props.C25_idx3_owner D h.valid r p hx).2
    have o2 := (Props.C25_idx3_owner D h.valid r2 p2 hy).2
    simp only at e1
    rw [e1, o1] at o2
    exact Option.some.inj o2
  · rintro ⟨r, p⟩
    rw [Bndp.mem_allPatches, List.mem_map]
    constructor
    · rintro ⟨⟨r2, p2⟩, hx, hxy⟩
      have := (he (r2, p2) (Bndp.mem_allPatches.1 hx)).1
      rw [hxy] at this
      exact this
    · intro hh
      obtain ⟨hg, ho⟩ := Props.C25_idx3_owner S.c.D hv r p hh
      obtain ⟨r2, p2, o1, o2, o3⟩ := Props.C25_owner_idx3 D h.valid (S.c.D.idx3 r p) (fun d => by rw [h.np]; exact hg d)
      refine ⟨(r2, p2), Bndp.mem_allPatches.2 o2, ?_⟩
      obtain ⟨q1, q2⟩ := he (r2, p2) o2
      simp only at q2
      rw [o3] at q2
      have q3 := (Props.C25_idx3_owner S.c.D hv _ _ q1).2
      rw [q2, ho] at q3
      exact (Option.some.inj q3).symm

include hv in
theorem prts : (globalPrts (withDecomp S D) s'.prts).Perm (globalPrts S s.prts) := by
  obtain ⟨e, he⟩ := h.get
  have hP := h.patches hv (e := e) fun rp hh => ⟨(he rp hh).1, (he rp hh).2.2.1⟩
  unfold globalPrts
  refine List.Perm.trans ?_ (hP.flatMap_right _)
  rw [List.flatMap_map]
  refine List.Perm.of_eq (List.flatMap_congr fun rp hrp => ?_)
  obtain ⟨-, h2, -, h4, -⟩ := he rp (Bndp.mem_allPatches.1 hrp)
  rw [h4]
  refine List.map_congr_left fun q _ => ?_
  unfold globalPrt
  rw [h2]
  rfl

theorem holds {m : ℕ} {G : I3 → ℝ} (hG : Holds S.c s.flds m G) : Holds (withDecomp S D).c s'.flds m G := by
  obtain ⟨e, he⟩ := h.get
  intro r p hh n hn
  obtain ⟨h1, h2, -, -, h5⟩ := he (r, p) hh
  simp only at h5
  rw [h5, hG _ _ h1 n hn, h2]

theorem periodic {G : I3 → ℝ} (hG : Periodic S.c G) : Periodic (withDecomp S D).c G := by
  intro x y hxy
  rw [h.wrap] at hxy
  exact hG x y hxy

include hv in
theorem represents {G : Serial.State} (hR : Represents S s G) : Represents (withDecomp S D) s' G :=
  ⟨(h.prts hv).trans hR.prts, fun d => h.periodic (hR.perE d), fun d => h.periodic (hR.perH d), fun d => h.holds (hR.E d),
    fun d => h.holds (hR.H d)⟩

theorem inside (hp : PrtsInside S s.prts) : PrtsInside (withDecomp S D) s'.prts := by
  obtain ⟨e, he⟩ := h.get
  intro r p hh q hq
  obtain ⟨h1, -, -, h4, -⟩ := he (r, p) hh
  simp only at h4
  rw [h4] at hq
  exact hp _ _ h1 q hq

theorem charged (hp : PrtsCharged S s.prts) : PrtsCharged (withDecomp S D) s'.prts := by
  obtain ⟨e, he⟩ := h.get
  intro r p hh q hq
  obtain ⟨h1, -, -, h4, -⟩ := he (r, p) hh
  simp only at h4
  rw [h4] at hq
  exact hp _ _ h1 q hq

theorem agree (hp : FieldsAgree S s.flds) : FieldsAgree (withDecomp S D) s'.flds := by
  intro m h1 h2
  obtain ⟨G, g1, g2⟩ := hp m h1 h2
  exact ⟨G, h.periodic g1, h.holds g2⟩

theorem inv_ (iv : Inv S s) : Inv (withDecomp S D) s' := ⟨h.agree iv.agree, h.inside iv.inside, h.charged iv.charged⟩

theorem sound (hS : Sound S) : Sound (withDecomp S D) := ⟨hS.cont, hS.jstor, hS.rstor, hS.cov⟩

theorem soundG (hS : SoundG S) : SoundG (withDecomp S D) := ⟨hS.cov, hS.stor, hS.mstor, hS.mcov⟩

include hv in
theorem rhoG_eq (x : I3) : rhoG (withDecomp S D) s'.prts x = rhoG S s.prts x := by
  obtain ⟨e, he⟩ := h.get
  have hP := h.patches hv (e := e) fun rp hh => ⟨(he rp hh).1, (he rp hh).2.2.1⟩
  rw [Pic.rhoG_eq, Pic.rhoG_eq, ← (hP.map _).sum_eq, List.map_map]
  refine congrArg List.sum (List.map_congr_left fun rp hrp => ?_)
  obtain ⟨-, h2, -, h4, -⟩ := he rp (Bndp.mem_allPatches.1 hrp)
  simp only [Function.comp]
  rw [h4]
  have : wt (withDecomp S D) x rp = wt S x (e rp) := by
    funext q
    unfold wt
    have e1 : Pic.ind (withDecomp S D).c rp x = Pic.ind S.c (e rp) x := by
      funext n
      unfold Pic.ind
      rw [h.wrap]
      have : phys (withDecomp S D).c rp.1 rp.2 n = phys S.c (e rp).1 (e rp).2 n := by
        funext d
        unfold phys
        rw [h.gdims, h2]
        show (if D.bc d then _ else _) = _
        rw [h.bc]
      rw [this]
    rw [e1]
    rfl
  rw [this]

include hv in
theorem residual {w : ℤ} (hF : Fit S w) (hw : 2 ≤ w) (hS : Sound S) (hp : PrtsInside S s.prts) {R : I3 → ℝ}
    (hR : GaussResidual S R s) : GaussResidual (withDecomp S D) R s' := by
  obtain ⟨e, he⟩ := h.get
  obtain ⟨rho, r1, r2⟩ := itemRho_spec (hF.fits hw) hS hp
  obtain ⟨rho', r1', r2'⟩ := itemRho_spec ((h.fit hF).fits hw) (h.sound hS) (h.inside hp)
  obtain ⟨rho2, g1, g2⟩ := hR
  rw [r1] at g1
  obtain rfl := Option.some.inj g1
  refine ⟨rho', r1', fun r p hh n hn => ?_⟩
  obtain ⟨h1, h2, -, -, h5⟩ := he (r, p) hh
  have := g2 _ _ h1 n hn
  rw [r2 _ _ h1 n hn, h2] at this
  rw [r2' r p hh n hn, ← this, h.rhoG_eq hv]
  simp only at h5
  rw [h5]
  rfl

theorem within {w : ℤ} (hF : Fit S w) (hw : 2 ≤ w) (hS : Sound S) (hv : S.c.D.Valid) (hp : PrtsInside S s.prts) {M : ℝ}
    (hM : GaussWithin S M s) : GaussWithin (withDecomp S D) M s' := by
  obtain ⟨e, he⟩ := h.get
  obtain ⟨rho, r1, r2⟩ := itemRho_spec (hF.fits hw) hS hp
  obtain ⟨rho', r1', r2'⟩ := itemRho_spec ((h.fit hF).fits hw) (h.sound hS) (h.inside hp)
  obtain ⟨rho2, g1, g2⟩ := hM
  rw [r1] at g1
  obtain rfl := Option.some.inj g1
  refine ⟨rho', r1', fun r p hh n hn => ?_⟩
  obtain ⟨h1, h2, -, -, h5⟩ := he (r, p) hh
  have := g2 _ _ h1 n hn
  rw [r2 _ _ h1 n hn, h2] at this
  rw [r2' r p hh n hn, h.rhoG_eq hv]
  simp only at h5
  rw [h5]
  exact this

theorem busy' (hb : AllBusy S) : AllBusy (withDecomp S D) := ⟨by show 0 < D.counts.length; rw [h.ranks]; exact hb.1, h.busy⟩

theorem redistributed : Redistributed S (withDecomp S D) where
  rest := by
    show withDecomp S D = { S with c := { S.c with D := { S.c.D with counts := D.counts } } }
    unfold withDecomp
    have e : D = { S.c.D with counts := D.counts } := by
      cases D
      simp only [Decomp.mk.injEq]
      exact ⟨h.np, h.bc, h.curve, trivial⟩
    exact congrArg (fun D => { S with c := { S.c with D := D } }) e
  valid := h.valid
  ranks := h.ranks
  busy := h.busy

end Moved

theorem sum_ge_length (l : List ℕ) (h : ∀ n ∈ l, 1 ≤ n) : l.length ≤ l.sum := by
  induction l with
  | nil => simp
  | cons a l ih =>
    have := h a List.mem_cons_self
    have := ih fun n hn => h n (List.mem_cons_of_mem _ hn)
    simp only [List.length_cons, List.sum_cons]
    omega

theorem Redistributed.refl {S : Setup} (hv : S.c.D.Valid) (hb : AllBusy S) : Redistributed S S := ⟨rfl, hv, rfl, hb.2⟩

theorem Redistributed.trans {S S' S'' : Setup} (h : Redistributed S S') (h' : Redistributed S' S'') : Redistributed S S'' where
  rest := by
    rw [h'.rest]
    generalize S''.c.D.counts = n
    rw [h.rest]
  valid := h'.valid
  ranks := h'.ranks.trans h.ranks
  busy := h'.busy

/-- the balancing part of a step -/
theorem balance_part {S : Setup} {w : ℤ} (hF : Fit S w) (hb : AllBusy S) {f : ℝ} (hf : 0 < f) (i : BStepIn) (s : State) :
    ∃ D s', (if i.bal then rebalance f i.comp_time (S, s) else some (S, s)) = some (withDecomp S D, s') ∧ Moved S D s s' := by
  split_ifs with h
  · exact rebalance_spec hF.valid.valid hF.pos hb.1 (sum_ge_length _ hb.2) hf _ s
  · exact ⟨S.c.D, s, rfl, rfl, rfl, rfl, hF.valid.valid, rfl, hb.2, fun r p hh => ⟨(r, p), hh, rfl, rfl, rfl⟩⟩

theorem step_of {f : ℝ} {i : BStepIn} {Ss : Setup × State} {S1 : Setup} {s1 s2 : State}
    (h1 : (if i.bal then rebalance f i.comp_time Ss else some Ss) = some (S1, s1)) (h2 : Pic.step S1 i.step s1 = some s2) :
    step f i Ss = some (S1, s2) := by
  unfold step
  cases hb : i.bal with
  | false =>
    rw [hb] at h1
    obtain rfl := Option.some.inj h1
    simp only [Option.bind_eq_bind, Bool.false_eq_true, if_false, h2, Option.bind_some]
    rfl
  | true =>
    rw [hb] at h1
    simp only [if_true] at h1
    simp only [Option.bind_eq_bind, if_true, h1, Option.bind_some, h2]
    rfl

theorem run_serial {S : Setup} {w : ℤ} (hF : Fit S w) (hw : 2 ≤ w) (hS : SoundG S) (hb : AllBusy S) {f : ℝ} (hf : 0 < f)
    (l : List BStepIn) (hl : ∀ i ∈ l, OnlySorts i.step) {s : State} {G : Serial.State} (hp : PrtsInside S s.prts)
    (hR : Represents S s G) :
    ∃ S' s', run f l (S, s) = some (S', s') ∧ Redistributed S S' ∧ PrtsInside S' s'.prts ∧
      Represents S' s' (Serial.run S.problem (l.map fun i => corrs i.step) G) := by
  induction l generalizing S s G with
  | nil => exact ⟨S, s, rfl, .refl hF.valid.valid hb, hp, hR⟩
  | cons i l ih =>
    obtain ⟨D, s1, e1, m1⟩ := balance_part hF hb hf i s
    obtain ⟨s2, e2, p2, q2⟩ := Pic.step_serial (m1.fit hF) hw (m1.soundG hS) i.step (hl i List.mem_cons_self)
      (m1.inside hp) (m1.represents hF.valid.valid hR)
    obtain ⟨S', s', e3, d3, p3, q3⟩ := ih (m1.fit hF) (m1.soundG hS) (m1.busy' hb)
      (fun i hi => hl i (List.mem_cons_of_mem _ hi)) p2 q2
    refine ⟨S', s', ?_, m1.redistributed.trans d3, p3, ?_⟩
    · simp only [run, Option.bind_eq_bind, step_of e1 e2, Option.bind_some]
      exact e3
    · rw [m1.problem] at q3
      exact q3

theorem run_gauss {S : Setup} {w : ℤ} (hF : Fit S w) (hw : 2 ≤ w) (hS : Sound S) (hact : ∃ d, S.cfg.inv d = false)
    (hb : AllBusy S) {f : ℝ} (hf : 0 < f) (l : List BStepIn) (hl : ∀ i ∈ l, KeepsCharge i.step)
    (hD : S.depM = S.dep ∨ ∀ i ∈ l, i.step.ms = []) (hm : ∀ i ∈ l, ∀ m ∈ i.step.ms, 0 ≤ m.diffusion_ ∧ m.diffusion_ ≤ 1)
    {s : State} (iv : Inv S s) (M : ℝ) (hM : GaussWithin S M s) :
    ∃ S' s', run f l (S, s) = some (S', s') ∧ Redistributed S S' ∧ PrtsInside S' s'.prts ∧ GaussWithin S' M s' := by
  induction l generalizing S s with
  | nil => exact ⟨S, s, rfl, .refl hF.valid.valid hb, iv.inside, hM⟩
  | cons i l ih =>
    obtain ⟨D, s1, e1, m1⟩ := balance_part hF hb hf i s
    have hi : ∀ j ∈ [i.step], KeepsCharge j := by
      intro j hj; rw [List.mem_singleton.1 hj]; exact hl i List.mem_cons_self
    have hD1 : (withDecomp S D).depM = (withDecomp S D).dep ∨ ∀ j ∈ [i.step], j.ms = [] :=
      hD.imp id fun h j hj => by rw [List.mem_singleton.1 hj]; exact h i List.mem_cons_self
    have iv1 := m1.inv_ iv
    obtain ⟨s2, e2, p2, q2⟩ := Pic.run_gauss (m1.fit hF) hw (m1.sound hS) hact [i.step] hi hD1
      (fun j hj => by rw [List.mem_singleton.1 hj]; exact hm i List.mem_cons_self) s1
      iv1.agree iv1.inside iv1.charged M (m1.within hF hw hS hF.valid.valid iv.inside hM)
    obtain ⟨E, H, pE, pH, hE, hH⟩ := iv1.agree.get
    obtain ⟨s2', -, -, e2', iv2, -⟩ := run_inv (m1.fit hF) hw (m1.sound hS) [i.step] hi hD1 (fun _ _ _ => True)
      (fun _ _ _ _ _ _ _ _ _ _ _ => trivial) s1 iv1 E H pE pH hE hH trivial
    rw [e2] at e2'
    obtain rfl := Option.some.inj e2'
    obtain ⟨S', s', e3, d3, p3, q3⟩ := ih (m1.fit hF) (m1.sound hS) hact (m1.busy' hb)
      (fun i hi => hl i (List.mem_cons_of_mem _ hi)) (hD.imp id fun h j hj => h j (List.mem_cons_of_mem _ hj))
      (fun i hi => hm i (List.mem_cons_of_mem _ hi)) iv2 q2
    refine ⟨S', s', ?_, m1.redistributed.trans d3, p3, q3⟩
    have e4 : Pic.step (withDecomp S D) i.step s1 = some s2 := by
      simp only [Pic.run, Option.bind_eq_bind] at e2
      cases h : Pic.step (withDecomp S D) i.step s1 with
      | none => rw [h] at e2; simp at e2
      | some t => rw [h] at e2; simpa using e2
    simp only [run, Option.bind_eq_bind, step_of e1 e4, Option.bind_some]
    exact e3

theorem run_residual {S : Setup} {w : ℤ} (hF : Fit S w) (hw : 2 ≤ w) (hS : Sound S)
    (hb : AllBusy S) {f : ℝ} (hf : 0 < f) (l : List BStepIn) (hl : ∀ i ∈ l, KeepsCharge i.step)
    (hm : ∀ i ∈ l, i.step.ms = []) {s : State} (iv : Inv S s) (R : I3 → ℝ) (hR : GaussResidual S R s) :
    ∃ S' s', run f l (S, s) = some (S', s') ∧ Redistributed S S' ∧ PrtsInside S' s'.prts ∧ GaussResidual S' R s' := by
  induction l generalizing S s with
  | nil => exact ⟨S, s, rfl, .refl hF.valid.valid hb, iv.inside, hR⟩
  | cons i l ih =>
    obtain ⟨D, s1, e1, m1⟩ := balance_part hF hb hf i s
    have hi : ∀ j ∈ [i.step], KeepsCharge j := by
      intro j hj; rw [List.mem_singleton.1 hj]; exact hl i List.mem_cons_self
    have hm1 : ∀ j ∈ [i.step], j.ms = [] := fun j hj => by rw [List.mem_singleton.1 hj]; exact hm i List.mem_cons_self
    have iv1 := m1.inv_ iv
    obtain ⟨s2, rho, rho', e2, r1, r2, r3⟩ := Pic.run_residual (m1.fit hF) hw (m1.sound hS) [i.step] hi hm1 s1
      iv1.agree iv1.inside iv1.charged
    obtain ⟨E, H, pE, pH, hE, hH⟩ := iv1.agree.get
    obtain ⟨s2', -, -, e2', iv2, -⟩ := run_inv (m1.fit hF) hw (m1.sound hS) [i.step] hi (Or.inr hm1) (fun _ _ _ => True)
      (fun _ _ _ _ _ _ _ _ _ _ _ => trivial) s1 iv1 E H pE pH hE hH trivial
    rw [e2] at e2'
    obtain rfl := Option.some.inj e2'
    obtain ⟨rho1, g1, g2⟩ := m1.residual hF.valid.valid hF hw hS iv.inside hR
    rw [r1] at g1
    obtain rfl := Option.some.inj g1
    obtain ⟨S', s', e3, d3, p3, q3⟩ := ih (m1.fit hF) (m1.sound hS) (m1.busy' hb)
      (fun i hi => hl i (List.mem_cons_of_mem _ hi)) (fun j hj => hm j (List.mem_cons_of_mem _ hj))
      iv2 ⟨rho', r2, fun r p hh n hn => by rw [r3 r p hh n hn, g2 r p hh n hn]⟩
    refine ⟨S', s', ?_, m1.redistributed.trans d3, p3, q3⟩
    have e4 : Pic.step (withDecomp S D) i.step s1 = some s2 := by
      simp only [Pic.run, Option.bind_eq_bind] at e2
      cases h : Pic.step (withDecomp S D) i.step s1 with
      | none => rw [h] at e2; simp at e2
      | some t => rw [h] at e2; simpa using e2
    simp only [run, Option.bind_eq_bind, step_of e1 e4, Option.bind_some]
    exact e3

theorem Moved.divB {S : Setup} {D : Decomp} {s s' : State} (h : Moved S D s s') {R : I3 → ℝ} (hR : DivB S R s) :
    DivB (withDecomp S D) R s' := by
  obtain ⟨e, he⟩ := h.get
  intro r p hh n hn
  obtain ⟨h1, h2, -, -, h5⟩ := he (r, p) hh
  have := hR _ _ h1 n hn
  rw [h2] at this
  rw [← this]
  simp only at h5
  rw [h5]
  rfl

theorem run_divB {S : Setup} {w : ℤ} (hF : Fit S w) (hw : 2 ≤ w) (hS : Sound S)
    (hb : AllBusy S) {f : ℝ} (hf : 0 < f) (l : List BStepIn) (hl : ∀ i ∈ l, KeepsCharge i.step)
    (hD : S.depM = S.dep ∨ ∀ i ∈ l, i.step.ms = []) {s : State} (iv : Inv S s) (R : I3 → ℝ) (hR : DivB S R s) :
    ∃ S' s', run f l (S, s) = some (S', s') ∧ Redistributed S S' ∧ PrtsInside S' s'.prts ∧ DivB S' R s' := by
  induction l generalizing S s with
  | nil => exact ⟨S, s, rfl, .refl hF.valid.valid hb, iv.inside, hR⟩
  | cons i l ih =>
    obtain ⟨D, s1, e1, m1⟩ := balance_part hF hb hf i s
    have hi : ∀ j ∈ [i.step], KeepsCharge j := by
      intro j hj; rw [List.mem_singleton.1 hj]; exact hl i List.mem_cons_self
    have hD1 : (withDecomp S D).depM = (withDecomp S D).dep ∨ ∀ j ∈ [i.step], j.ms = [] :=
      hD.imp id fun h j hj => by rw [List.mem_singleton.1 hj]; exact h i List.mem_cons_self
    have iv1 := m1.inv_ iv
    obtain ⟨s2, e2, r3⟩ := Pic.run_divB (m1.fit hF) hw (m1.sound hS) [i.step] hi hD1 s1
      iv1.agree iv1.inside iv1.charged
    obtain ⟨E, H, pE, pH, hE, hH⟩ := iv1.agree.get
    obtain ⟨s2', -, -, e2', iv2, -⟩ := run_inv (m1.fit hF) hw (m1.sound hS) [i.step] hi hD1 (fun _ _ _ => True)
      (fun _ _ _ _ _ _ _ _ _ _ _ => trivial) s1 iv1 E H pE pH hE hH trivial
    rw [e2] at e2'
    obtain rfl := Option.some.inj e2'
    have g := m1.divB hR
    obtain ⟨S', s', e3, d3, p3, q3⟩ := ih (m1.fit hF) (m1.sound hS) (m1.busy' hb)
      (fun i hi => hl i (List.mem_cons_of_mem _ hi)) (hD.imp id fun h j hj => h j (List.mem_cons_of_mem _ hj))
      iv2 (fun r p hh n hn => (r3 r p hh n hn).trans (g r p hh n hn))
    refine ⟨S', s', ?_, m1.redistributed.trans d3, p3, q3⟩
    have e4 : Pic.step (withDecomp S D) i.step s1 = some s2 := by
      simp only [Pic.run, Option.bind_eq_bind] at e2
      cases h : Pic.step (withDecomp S D) i.step s1 with
      | none => rw [h] at e2; simp at e2
      | some t => rw [h] at e2; simpa using e2
    simp only [run, Option.bind_eq_bind, step_of e1 e4, Option.bind_some]
    exact e3

theorem run_unbalanced {S : Setup} {w : ℤ} (hF : Fit S w) (hw : 2 ≤ w) (hS : SoundG S) (hb : AllBusy S) {f : ℝ} (hf : 0 < f)
    (l : List BStepIn) (hl : ∀ i ∈ l, OnlySorts i.step) {s : State} (hs : FieldsAgree S s.flds)
    (hp : PrtsInside S s.prts) :
    ∃ S' s' t, run f l (S, s) = some (S', s') ∧ Redistributed S S' ∧ PrtsInside S' s'.prts ∧
      Pic.run S (l.map BStepIn.step) s = some t ∧ SameState S S' t s' := by
  obtain ⟨G, -, hR⟩ := represented hs
  obtain ⟨S', s', e1, d1, p1, q1⟩ := run_serial hF hw hS hb hf l hl hp hR
  obtain ⟨t, e2, -, q2⟩ := Pic.run_serial hF hw hS (l.map BStepIn.step)
    (by intro i hi; obtain ⟨j, hj, rfl⟩ := List.mem_map.1 hi; exact hl j hj) hp hR
  refine ⟨S', s', t, e1, d1, p1, e2, ?_⟩
  rw [List.map_map] at q2
  refine q2.same hF.valid ⟨d1.valid, ?_⟩ q1
  rw [d1.rest]
  exact hF.valid.ibn

end

end Psc.BalPic
