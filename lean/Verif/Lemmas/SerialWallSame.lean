import Verif.Lemmas.SerialWall

/-! Two decompositions of the same box. -/

namespace Psc.WallPic

open Domain Ddc FieldStep BndFields Spec Yee Translate Pic

noncomputable section

/-- every cell of the box belongs to a patch -/
theorem cover {S : Setup} (hF : Fit S) {x : I3} (hx : ∀ d, 0 ≤ x d ∧ x d < S.c.gdims d) :
    ∃ r p n, S.c.D.Has r p ∧ Interior S.c n ∧ (fun d => S.c.off r p d + n d) = x := by
  have hL : ∀ d, 0 < S.c.ldims d := hF.pos
  have q0 : ∀ d, 0 ≤ x d / S.c.ldims d := fun d => Int.ediv_nonneg (hx d).1 (hL d).le
  have q1 : ∀ d, x d / S.c.ldims d < S.c.D.np d := fun d => Int.ediv_lt_of_lt_mul (hL d) (hx d).2
  obtain ⟨r, p, -, hp, hi⟩ := Props.C25_owner_idx3 S.c.D hF.valid.valid (fun d => (x d / S.c.ldims d).toNat) (by
    intro d; have := q0 d; have := q1 d; show (x d / S.c.ldims d).toNat < S.c.D.np d; omega)
  refine ⟨r, p, fun d => x d % S.c.ldims d, hp, fun d => ⟨Int.emod_nonneg _ (hL d).ne', Int.emod_lt_of_pos _ (hL d)⟩, ?_⟩
  funext d
  simp only [Cfg.off, hi]
  rw [Int.toNat_of_nonneg (q0 d)]
  exact Int.ediv_mul_add_emod (x d) (S.c.ldims d)

/-- and to no other -/
theorem cover_unique {S : Setup} (hF : Fit S) {r p r' p' : ℕ} (h : S.c.D.Has r p) (h' : S.c.D.Has r' p') {n n' : I3}
    (hn : Interior S.c n) (hn' : Interior S.c n') (e : ∀ d, S.c.off r p d + n d = S.c.off r' p' d + n' d) :
    r = r' ∧ p = p' ∧ n = n' := by
  have hL : ∀ d, 0 < S.c.ldims d := hF.pos
  have ei : S.c.D.idx3 r p = S.c.D.idx3 r' p' := by
    funext d
    have := e d
    unfold Cfg.off at this
    have h1 := hn d
    have h2 := hn' d
    have a : ((S.c.D.idx3 r p d : ℤ) * S.c.ldims d + n d) / S.c.ldims d = S.c.D.idx3 r p d := by
      rw [add_comm, Int.add_mul_ediv_right _ _ (hL d).ne', Int.ediv_eq_zero_of_lt h1.1 h1.2, zero_add]
    have b : ((S.c.D.idx3 r' p' d : ℤ) * S.c.ldims d + n' d) / S.c.ldims d = S.c.D.idx3 r' p' d := by
      rw [add_comm, Int.add_mul_ediv_right _ _ (hL d).ne', Int.ediv_eq_zero_of_lt h2.1 h2.2, zero_add]
    rw [this, b] at a
    exact_mod_cast a.symm
  have o1 := (Props.C25_idx3_owner S.c.D hF.valid.valid r p h).2
  have o2 := (Props.C25_idx3_owner S.c.D hF.valid.valid r' p' h').2
  rw [ei, o2] at o1
  simp only [Option.some.injEq, Prod.mk.injEq] at o1
  obtain ⟨rfl, rfl⟩ := o1
  refine ⟨rfl, rfl, funext fun d => ?_⟩
  have := e d
  omega

/-- the face below a face at the upper end -/
theorem TopFace.below {S : Setup} (hF : Fit S) {m : Fin 3} {n : I3} (h : TopFace S m n) :
    Interior S.c (shift n m (-1)) := by
  intro d
  have := hF.pos d
  unfold shift
  by_cases hd : d = m
  · subst hd; rw [if_pos rfl, h.1]; omega
  · rw [if_neg hd]; have := h.2 d hd; omega

theorem TopFace.unique {S : Setup} (hF : Fit S) {r p r' p' : ℕ} (h : S.c.D.Has r p) (h' : S.c.D.Has r' p') {m : Fin 3} {n n' : I3}
    (hn : TopFace S m n) (hn' : TopFace S m n') (e : ∀ d, S.c.off r p d + n d = S.c.off r' p' d + n' d) :
    r = r' ∧ p = p' ∧ n = n' := by
  obtain ⟨a, b, c⟩ := cover_unique hF h h' (hn.below hF) (hn'.below hF) (fun d => by
    have := e d
    unfold shift
    split_ifs <;> omega)
  refine ⟨a, b, funext fun d => ?_⟩
  subst a b
  have := e d
  omega

/-- the top faces of the box are top faces of patches -/
theorem cover_top {S : Setup} (hF : Fit S) {m : Fin 3} {x : I3} (hm : S.c.D.bc m = false) (hx : x m = S.c.gdims m)
    (hg : 0 < S.c.gdims m) (hx' : ∀ d, d ≠ m → 0 ≤ x d ∧ x d < S.c.gdims d) :
    ∃ r p n, S.c.D.Has r p ∧ AtWall S r p m ∧ TopFace S m n ∧ (fun d => S.c.off r p d + n d) = x := by
  obtain ⟨r, p, n, hh, hn, e⟩ := cover hF (x := shift x m (-1)) (fun d => by
    unfold shift
    by_cases hd : d = m
    · subst hd; rw [if_pos rfl, hx]; omega
    · rw [if_neg hd]; exact hx' d hd)
  have e' : ∀ d, S.c.off r p d + n d = if d = m then x d + -1 else x d := fun d => congrFun e d
  have em := e' m
  rw [if_pos rfl] at em
  have hnm := hn m
  have o := off_range (hF.fitsB none) hh m
  have ht := (off_two hF hh m).2
  refine ⟨r, p, shift n m 1, hh, ⟨hm, by omega⟩, ⟨?_, fun d hd => ?_⟩, ?_⟩
  · unfold shift; rw [if_pos rfl]; omega
  · unfold shift; rw [if_neg hd]; exact hn d
  · funext d
    have := e' d
    unfold shift
    by_cases hd : d = m
    · subst hd; rw [if_pos rfl] at this ⊢; omega
    · rw [if_neg hd] at this ⊢; exact this

/-- a cell inside the box, wrapped around periodic directions -/
theorem wrap_range {S : Setup} (hF : Fit S) {r p : ℕ} (hh : S.c.D.Has r p) {n : I3} (hn : InDomain S.c r p n) (d : Fin 3) :
    0 ≤ wrap S.c (fun d => S.c.off r p d + n d) d ∧ wrap S.c (fun d => S.c.off r p d + n d) d < S.c.gdims d := by
  have o := off_range (hF.fitsB none) hh d
  have := hF.pos d
  unfold wrap
  split_ifs with hb
  · exact ⟨Int.emod_nonneg _ (by omega), Int.emod_lt_of_pos _ (by omega)⟩
  · rcases hn d with h | h
    · exact absurd h hb
    · exact h

theorem wrap_of_range {c : Cfg} {x : I3} (h : ∀ d, 0 ≤ x d ∧ x d < c.gdims d) : wrap c x = x := by
  funext d
  unfold wrap
  split_ifs
  · exact Int.emod_eq_of_lt (h d).1 (h d).2
  · rfl

open Classical in
/-- Every state with consistent ghost cells and no electric field along the upper walls represents a state in the box. -/
theorem represented_box {S : Setup} (hF : Fit S) {s : Pic.State} (h : FieldsAgree S s.flds) (h0 : NoFieldAlongTop S s.flds) :
    ∃ G, G.prts = globalPrts S.pic s.prts ∧ Represents S s G := by
  obtain ⟨E, H, pE, pH, hE, hH⟩ := h.get
  set P : Fin 3 → I3 → ℕ × ℕ × I3 → Prop := fun m x t => S.c.D.Has t.1 t.2.1 ∧ AtWall S t.1 t.2.1 m ∧ TopFace S m t.2.2 ∧
    wrap S.c (fun d => S.c.off t.1 t.2.1 d + t.2.2 d) = wrap S.c x with hP
  refine ⟨⟨_, fun m x => if ∃ d, d ≠ m ∧ S.c.D.bc d = false ∧ x d = S.c.gdims d then 0 else E m x,
    fun m x => if h : ∃ t, P m x t then s.flds h.choose.1 h.choose.2.1 (HX + m, h.choose.2.2) else H m x⟩, rfl,
    List.Perm.refl _, ?_, ?_, ?_, ?_, ?_, ?_, ?_⟩
  · intro m x y hxy
    have e : ∀ d, S.c.D.bc d = false → x d = y d := by
      intro d hd
      have := congrFun hxy d
      unfold wrap at this
      rwa [if_neg (by rw [hd]; decide), if_neg (by rw [hd]; decide)] at this
    have : (∃ d, d ≠ m ∧ S.c.D.bc d = false ∧ x d = S.c.gdims d) ↔ ∃ d, d ≠ m ∧ S.c.D.bc d = false ∧ y d = S.c.gdims d :=
      exists_congr fun d => and_congr_right fun _ => and_congr_right fun hb => by rw [e d hb]
    simp only [this, pE m x y hxy]
  · intro m x y hxy
    have : P m x = P m y := by simp only [hP, hxy]
    simp only [this, pH m x y hxy]
  · intro m r p hh n hn hd
    simp only
    rw [if_neg, hE m r p hh n hn hd]
    rintro ⟨d, -, hb, e⟩
    rcases hd d with h | h
    · rw [hb] at h; cases h
    · omega
  · intro m r p hh n hn hd
    simp only
    rw [dif_neg, hH m r p hh n hn hd]
    rintro ⟨t, hh', hw, ht, e⟩
    have := congrFun e m
    unfold wrap at this
    rw [if_neg (by rw [hw.1]; decide), if_neg (by rw [hw.1]; decide)] at this
    have this : S.c.off t.1 t.2.1 m + t.2.2 m = S.c.off r p m + n m := this
    rcases hd m with h | h
    · rw [hw.1] at h; cases h
    · have := ht.1; have := hw.2; omega
  · intro d m hdm hb x hx
    simp only
    rw [if_pos ⟨d, hdm, hb, hx⟩]
  · exact h0
  · intro r p hh m hw n hn
    simp only
    have hex : ∃ t, P m (fun d => S.c.off r p d + n d) t := ⟨(r, p, n), hh, hw, hn, rfl⟩
    rw [dif_pos hex]
    obtain ⟨k1, k2, k3, k4⟩ := hex.choose_spec
    have k5 := TopFace.unique hF k1 hh k3 hn (fun d => by
      by_cases hdm : d = m
      · subst hdm; rw [k3.1, hn.1]; have := k2.2; have := hw.2; omega
      · have := congrFun k4 d
        have rng : ∀ a b (v : I3), S.c.D.Has a b → TopFace S m v →
            wrap S.c (fun d => S.c.off a b d + v d) d = S.c.off a b d + v d := by
          intro a b v ha hv
          have o := off_range (hF.fitsB none) ha d
          have := hv.2 d hdm
          unfold wrap
          change (if S.c.D.bc d = true then (S.c.off a b d + v d) % S.c.gdims d else S.c.off a b d + v d) = _
          split_ifs
          · exact Int.emod_eq_of_lt (by omega) (by omega)
          · rfl
        rwa [rng _ _ _ k1 k3, rng _ _ _ hh hn] at this)
    rw [k5.1, k5.2.1, k5.2.2]

theorem Represents.congr {S S' : Setup} (hF : Fit S) (hF' : Fit S') (hQ : S.box = S'.box)
    {s s' : Pic.State} (h' : FieldsAgree S' s'.flds) (h0' : NoFieldAlongTop S' s'.flds) (hss : SameState S S' s s')
    {G : Serial.State} (hR : Represents S s G) : Represents S' s' G := by
  have eg : S.c.gdims = S'.c.gdims := congrArg SerialWall.Box.gdims hQ
  have eb : S.c.D.bc = S'.c.D.bc := congrArg SerialWall.Box.per hQ
  have ew : ∀ x, wrap S'.c x = wrap S.c x := by
    intro x; funext d; unfold wrap; rw [eg, eb]
  have per : ∀ {f : I3 → ℝ}, Periodic S.c f → Periodic S'.c f := by
    intro f hf x y hxy
    exact hf x y (by rw [← ew, ← ew, hxy])
  obtain ⟨E', H', pE', pH', hE', hH'⟩ := h'.get
  have key : ∀ (m : ℕ) (F F' : I3 → ℝ), EX ≤ m → m < EX + 6 → HoldsIn S.c s.flds m F → HoldsIn S'.c s'.flds m F' →
      Periodic S.c F → Periodic S'.c F' → HoldsIn S'.c s'.flds m F := by
    intro m F F' h1 h2 hF1 hF2 p1 p2 r' p' hh n hn hd
    rw [hF2 r' p' hh n hn hd]
    set y := wrap S'.c (fun d => S'.c.off r' p' d + n d) with hy
    have hr := wrap_range hF' hh hd
    rw [← hy] at hr
    obtain ⟨a', b', n1', hab', hn1', e1'⟩ := cover hF' hr
    obtain ⟨a, b, n1, hab, hn1, e1⟩ := cover hF (x := y) (fun d => by rw [eg]; exact hr d)
    have hwy : wrap S'.c y = y := wrap_of_range hr
    rw [p2 _ y hwy.symm, p1 _ y (by rw [← ew, ← ew, hwy]), ← e1, ← hF1 a b hab n1 (interior_stored hF.valid hn1)
      (interior_inDomain hF.valid hab hn1), e1]
    rw [← e1', ← hF2 a' b' hab' n1' (interior_stored hF'.valid hn1') (interior_inDomain hF'.valid hab' hn1')]
    refine (hss.2.1 a b a' b' n1 n1' hab hab' hn1 hn1' (fun d => ?_) m h1 h2).symm
    exact congrFun (e1.trans e1'.symm) d
  refine ⟨hss.1.symm.trans hR.prts, fun d => per (hR.perE d), fun d => per (hR.perH d),
    fun d => key _ _ _ (by omega) (by omega) (hR.E d) (hE' d) (hR.perE d) (pE' d),
    fun d => key _ _ _ (by unfold EX HX; omega) (by unfold EX HX; omega) (hR.H d) (hH' d) (hR.perH d) (pH' d),
    fun d m hdm hb x hx => hR.topE d m hdm (by rw [eb]; exact hb) x (by rw [eg]; exact hx), h0', ?_⟩
  intro r' p' hh m hw n hn
  have o := fun d => off_range (hF'.fitsB none) hh d
  have hL := hF'.pos
  obtain ⟨r, p, n1, hh1, hw1, hn1, e1⟩ := cover_top hF (m := m) (x := fun d => S'.c.off r' p' d + n d)
    (by rw [eb]; exact hw.1) (by rw [eg, ← hw.2, hn.1]) (by rw [eg]; have := o m; have := hL m; omega)
    (fun d hd => by rw [eg]; have := o d; have := hn.2 d hd; omega)
  rw [← hss.2.2 r p r' p' m n1 n hh1 hh hw1 hw hn1 hn (fun d => congrFun e1 d), hR.hiH r p hh1 m hw1 n1 hn1, e1]

theorem Represents.same {S S' : Setup} (hv : S.c.Ok) (hv' : S'.c.Ok) {s s' : Pic.State} {G : Serial.State}
    (h : Represents S s G) (h' : Represents S' s' G) : SameState S S' s s' := by
  refine ⟨h.prts.trans h'.prts.symm, fun r p r' p' n n' hh hh' hn hn' e m h1 h2 => ?_,
    fun r p r' p' m n n' hh hh' hw hw' hn hn' e => ?_⟩
  · have ee : (fun d => S.c.off r p d + n d) = fun d => S'.c.off r' p' d + n' d := funext e
    have i1 := interior_inDomain hv hh hn
    have i2 := interior_inDomain hv' hh' hn'
    by_cases hm : m < HX
    · have e1 := h.E ⟨m - EX, by unfold HX EX at *; omega⟩ r p hh n (interior_stored hv hn) i1
      have e2 := h'.E ⟨m - EX, by unfold HX EX at *; omega⟩ r' p' hh' n' (interior_stored hv' hn') i2
      simp only [show EX + (m - EX) = m by omega] at e1 e2
      rw [e1, e2, ee]
    · have e1 := h.H ⟨m - HX, by unfold HX EX at *; omega⟩ r p hh n (interior_stored hv hn) i1
      have e2 := h'.H ⟨m - HX, by unfold HX EX at *; omega⟩ r' p' hh' n' (interior_stored hv' hn') i2
      simp only [show HX + (m - HX) = m by omega] at e1 e2
      rw [e1, e2, ee]
  · rw [h.hiH r p hh m hw n hn, h'.hiH r' p' hh' m hw' n' hn']
    congr 1
    exact funext e

/-- the condition on the walls, for the patches and for the box -/
theorem offWall_box {S : Setup} (hF : Fit S) (hS : Scheme S) (hC : Closed S) (l : List StepIn) (hl : ∀ i ∈ l, OnlySorts i)
    {s : Pic.State} {G : Serial.State} (hp : PrtsOk S s.prts) (hR : Represents S s G) (how : OffWall S l s) :
    SerialWall.OffWall S.box l.length G := by
  induction l generalizing s G with
  | nil => trivial
  | cons i l ih =>
    have hi := hl i List.mem_cons_self
    have h1 : ∀ q ∈ (SerialWall.push S.box G).1, ∀ d, S.box.per d = false → q.x d ≠ S.box.len d := by
      intro q hq d hb e
      have hperm : (globalPrts S.pic fun r p => i.pre r p (s.prts r p)).Perm G.prts := by
        refine List.Perm.trans ?_ hR.prts
        unfold globalPrts
        exact List.Perm.flatMap_left _ fun rp _ => (hi rp.1 rp.2 _).map _
      have hg := push_global' hF hS (pre_ok hi.keeps hp) hR
      have hq' : q ∈ (Push.pushAll S.cfg S.P (Serial.em G.E G.H) (globalPrts S.pic fun r p => i.pre r p (s.prts r p))).1 :=
        (pushAll_perm S.cfg S.P (Serial.em G.E G.H) hperm).1.mem_iff.2 hq
      rw [← hg] at hq'
      obtain ⟨⟨r, p⟩, hrp, hm⟩ := List.mem_flatMap.1 hq'
      obtain ⟨q1, hq1, rfl⟩ := List.mem_map.1 hm
      refine how.1 r p (Bndp.mem_allPatches.1 hrp) q1 hq1 d (hC.walls hF hb).2.2.2 ?_
      have e : q1.x d + S.c.off r p d * S.P.dx d = S.c.gdims d * S.P.dx d := e
      linarith
    obtain ⟨s1, e1, p1, q1⟩ := step_box hF hS hC i hi hp hR h1
    exact ⟨h1, ih (fun i hi => hl i (List.mem_cons_of_mem _ hi)) p1 q1 (how.2 s1 e1)⟩

theorem run_same_box {S S' : Setup} (hF : Fit S) (hF' : Fit S') (hS : Scheme S) (hS' : Scheme S') (hC : Closed S) (hC' : Closed S')
    (hQ : S.box = S'.box) (l l' : List StepIn) (hl : ∀ i ∈ l, OnlySorts i) (hl' : ∀ i ∈ l', OnlySorts i)
    (hll : l.length = l'.length) (s s' : Pic.State) (hs : FieldsAgree S s.flds) (hs' : FieldsAgree S' s'.flds)
    (h0 : NoFieldAlongTop S s.flds) (h0' : NoFieldAlongTop S' s'.flds)
    (hp : PrtsOk S s.prts) (hp' : PrtsOk S' s'.prts) (hss : SameState S S' s s') (how : OffWall S l s) :
    ∃ t t', run S l s = some t ∧ run S' l' s' = some t' ∧ SameState S S' t t' := by
  obtain ⟨G, -, hR⟩ := represented_box hF hs h0
  have hR' := hR.congr hF hF' hQ hs' h0' hss
  have hw := offWall_box hF hS hC l hl hp hR how
  obtain ⟨t, e1, -, q1⟩ := run_box hF hS hC l hl hp hR hw
  rw [hQ, hll] at hw q1
  obtain ⟨t', e2, -, q2⟩ := run_box hF' hS' hC' l' hl' hp' hR' hw
  exact ⟨t, t', e1, e2, q1.same hF.valid hF'.valid q2⟩

/-- patches of the same size: no condition on particles exactly on an upper wall -/
theorem run_same_size {S S' : Setup} (hF : Fit S) (hF' : Fit S') (hS : Scheme S) (hS' : Scheme S') (hC : Closed S) (hC' : Closed S')
    (hQ : S.box = S'.box) (hL : S.c.ldims = S'.c.ldims) (l l' : List StepIn) (hl : ∀ i ∈ l, OnlySorts i)
    (hl' : ∀ i ∈ l', OnlySorts i) (hll : l.length = l'.length) (s s' : Pic.State) (hs : FieldsAgree S s.flds)
    (hs' : FieldsAgree S' s'.flds) (h0 : NoFieldAlongTop S s.flds) (h0' : NoFieldAlongTop S' s'.flds)
    (hp : PrtsOk S s.prts) (hp' : PrtsOk S' s'.prts) (hss : SameState S S' s s') :
    ∃ t t', run S l s = some t ∧ run S' l' s' = some t' ∧ SameState S S' t t' := by
  obtain ⟨G, -, hR⟩ := represented_box hF hs h0
  have hR' := hR.congr hF hF' hQ hs' h0' hss
  have hP : S.P = S'.P := congrArg SerialWall.Box.P hQ
  have hm : S.millionth = S'.millionth := by unfold Setup.millionth; rw [hL, hP]
  obtain ⟨t, e1, -, q1⟩ := run_boxN hF hS hC l hl hp hR
  obtain ⟨t', e2, -, q2⟩ := run_boxN hF' hS' hC' l' hl' hp' hR'
  rw [hQ, hll, hm] at q1
  exact ⟨t, t', e1, e2, q1.same hF.valid hF'.valid q2⟩

end

end Psc.WallPic
