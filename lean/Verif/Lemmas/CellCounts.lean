import Verif.Lemmas.CellInject

/-!
# Lemmas: how many particles an injection puts into each cell
-/

namespace Psc.CellInject

open Domain Ddc FieldStep Fields Spec Spec.Yee Moments Pic

open Classical

/-- the calls for one cell -/
theorem calls_at {D : Driver} (rnd : ℕ → ℝ) (init : I3 → ℕ → Setup.Npt ℝ → Setup.Npt ℝ) (pos : I3 → R3 ℝ) :
    ∀ (cs : List I3) (i : ℕ) (calls : List (Offsets.Call ℝ)), cs.Nodup → (∀ a ∈ cs, ∀ b ∈ cs, pos a = pos b → a = b) →
      Offsets.callsOf D.prm rnd (fun n => Setup.initNpt_to_initNp (init n)) pos cs i = some calls → ∀ n ∈ cs,
      ∃ j L s, Setup.cellLoop D.prm rnd (Setup.initNpt_to_initNp (init n)) D.prm.n_populations 0 ⟨0, j⟩ = some (L, s) ∧
        calls.filter (fun c => decide (c.pos = pos n)) = L.map fun o => ⟨o.1, o.2.kind, Setup.getWeight D.prm o.2.n o.1, pos n⟩ := by
  intro cs
  induction cs with
  | nil => intro _ _ _ _ _ n hn; simp at hn
  | cons m cs ih =>
    intro i calls hnd hinj hc n hn
    simp only [Offsets.callsOf, Option.bind_eq_bind] at hc
    obtain ⟨⟨L, s⟩, hL, hc⟩ := Option.bind_eq_some_iff.1 hc
    obtain ⟨calls', hc', hc⟩ := Option.bind_eq_some_iff.1 hc
    obtain rfl := Option.some.inj hc
    rw [List.nodup_cons] at hnd
    have hpos : ∀ (cs : List I3) (i : ℕ) (calls : List (Offsets.Call ℝ)),
        Offsets.callsOf D.prm rnd (fun n => Setup.initNpt_to_initNp (init n)) pos cs i = some calls → ∀ c ∈ calls, ∃ n ∈ cs, c.pos = pos n := by
      intro cs
      induction cs with
      | nil => intro i calls h c hc; obtain rfl := Option.some.inj h; simp at hc
      | cons m cs ih =>
        intro i calls h c hcm
        simp only [Offsets.callsOf, Option.bind_eq_bind] at h
        obtain ⟨⟨L, s⟩, hL, h⟩ := Option.bind_eq_some_iff.1 h
        obtain ⟨calls', hc', h⟩ := Option.bind_eq_some_iff.1 h
        obtain rfl := Option.some.inj h
        rcases List.mem_append.1 hcm with hcm | hcm
        · obtain ⟨o, -, rfl⟩ := List.mem_map.1 hcm
          exact ⟨m, by simp, rfl⟩
        · obtain ⟨n, hn, e⟩ := ih _ _ hc' c hcm
          exact ⟨n, by simp [hn], e⟩
    by_cases hmn : n = m
    · subst hmn
      refine ⟨i, L, s, hL, ?_⟩
      rw [List.filter_append, List.filter_eq_self.2, List.filter_eq_nil_iff.2, List.append_nil]
      · intro c hcm
        obtain ⟨n', hn', e⟩ := hpos _ _ _ hc' c hcm
        simp only [decide_eq_true_eq]
        intro e'
        have := hinj n (by simp) n' (by simp [hn']) (e'.symm.trans e)
        subst this
        exact hnd.1 hn'
      · intro c hcm
        obtain ⟨o, -, rfl⟩ := List.mem_map.1 hcm
        simp
    · have hn' : n ∈ cs := by simpa [hmn] using hn
      obtain ⟨j, L', s', h1, h2⟩ := ih s.pos calls' hnd.2 (fun a ha b hb => hinj a (by simp [ha]) b (by simp [hb])) hc' n hn'
      refine ⟨j, L', s', h1, ?_⟩
      rw [List.filter_append, List.filter_eq_nil_iff.2, List.nil_append, h2]
      intro c hcm
      obtain ⟨o, -, rfl⟩ := List.mem_map.1 hcm
      simp only [decide_eq_true_eq]
      intro e
      exact hmn (hinj m (by simp) n (by simp [hn']) e).symm

theorem pos_spot (S : Pic.Setup) (D : Driver) (corner : R3 ℝ) (r p : ℕ) (n : I3) (d : Fin 3) :
    posOf S D corner r p n d = InitDensity.xb (DeckRun.gridOf S D.kinds) (deckOf corner) r p d + spot S n d := by
  unfold posOf InitDensity.posOf spot
  show (if S.c.gdims d = 1 then _ else _) = _
  split_ifs
  · rw [add_zero]; rfl
  · rfl

theorem spot_inj {S : Pic.Setup} (hdx : ∀ d, 0 < S.P.dx d) {a b : I3} (h : spot S a = spot S b) : a = b := by
  funext d
  have := congrFun h d
  unfold spot at this
  have h2 := mul_right_cancel₀ (hdx d).ne' this
  have h3 : (a d : ℝ) = b d := by linarith
  exact_mod_cast h3

/-- the particles a patch gets: where they are, what they weigh, and how many there are of each kind in each cell -/
theorem placed {S : Pic.Setup} (hdx : ∀ d, 0 < S.P.dx d) (hl : ∀ d, 0 < S.c.ldims d) {D : Driver} (hD : Ok D) (hk : Kinds S D)
    (hfr : D.prm.fractional = true) (corner : R3 ℝ) (init : I3 → ℕ → Setup.Npt ℝ → Setup.Npt ℝ) (R : InitDensity.Random) (r p : ℕ) {l : List Push.Prt}
    (h : setupPatch S D corner init R r p = some l) :
    (∀ q ∈ l, q.qw = S.P.q q.kind ∧ ∃ n ∈ InitDensity.cells S.c.ldims, q.x = spot S n) ∧
    ∀ n ∈ InitDensity.cells S.c.ldims, ∃ j L s,
      Setup.cellLoop D.prm R.rnd (Setup.initNpt_to_initNp (init n)) D.prm.n_populations 0 ⟨0, j⟩ = some (L, s) ∧
      ∀ k, numAt l k (spot S n) = ((L.filter fun o => decide (o.2.kind = k)).map fun o => o.1.toNat).sum := by
  set G := DeckRun.gridOf S D.kinds with hG
  set xb := InitDensity.xb G (deckOf corner) r p with hxb
  obtain ⟨calls, hc, h1, -⟩ := calls_spec hD R.rnd init (InitDensity.posOf G (deckOf corner) r p) (InitDensity.cells G.c.ldims) 0
  have hxe : ∀ d, InitDensity.xe G (deckOf corner) r p d = xb d + G.c.ldims d * G.P.dx d := by
    intro d; rw [hxb]; unfold InitDensity.xe InitDensity.xb; ring
  have hin : ∀ c ∈ calls, InitDensity.Inside G xb c.pos := by
    intro c hcm
    obtain ⟨-, n, hn, e⟩ := h1 c hcm
    rw [e]
    exact pos_inside hdx D corner r p hn
  obtain ⟨l', e, hkey⟩ := InitDensity.injectCalls_spec (G := G) hdx hl R.mom calls ⟨xb, InitDensity.xe G (deckOf corner) r p, []⟩
    (fun c hcm => ⟨(h1 c hcm).1, hin c hcm⟩) hxe
  dsimp only at hkey
  have hll : l = l'.map InitDensity.toPrt := by
    unfold setupPatch at h
    rw [← hG] at h
    simp only [hc, Option.bind_eq_bind, Option.bind_some] at h
    rw [← hxb, e] at h
    simpa using h.symm
  subst hll
  have hps : ∀ n d, InitDensity.posOf G (deckOf corner) r p n d = xb d + spot S n d := fun n d => pos_spot S D corner r p n d
  have hw : ∀ o : ℤ × Setup.Np ℝ, Setup.getWeight D.prm o.2.n o.1 = 1 := fun o => by unfold Setup.getWeight; rw [if_pos hfr]
  have hw1 : ∀ c ∈ calls, c.weight = 1 := by
    have : ∀ (cs : List I3) (i : ℕ) (calls : List (Offsets.Call ℝ)),
        Offsets.callsOf D.prm R.rnd (fun n => Setup.initNpt_to_initNp (init n)) (InitDensity.posOf G (deckOf corner) r p) cs i = some calls →
        ∀ c ∈ calls, c.weight = 1 := by
      intro cs
      induction cs with
      | nil => intro i calls h c hc; obtain rfl := Option.some.inj h; simp at hc
      | cons m cs ih =>
        intro i calls h c hcm
        simp only [Offsets.callsOf, Option.bind_eq_bind] at h
        obtain ⟨⟨L, s⟩, hL, h⟩ := Option.bind_eq_some_iff.1 h
        obtain ⟨calls', hc', h⟩ := Option.bind_eq_some_iff.1 h
        obtain rfl := Option.some.inj h
        rcases List.mem_append.1 hcm with hcm | hcm
        · obtain ⟨o, -, rfl⟩ := List.mem_map.1 hcm
          exact hw o
        · exact ih _ _ hc' c hcm
    exact this _ _ _ hc
  constructor
  · intro q hq
    obtain ⟨a, ha, rfl⟩ := List.mem_map.1 hq
    have hka : InitDensity.key xb a ∈ l'.map (InitDensity.key xb) := List.mem_map_of_mem ha
    rw [hkey] at hka
    obtain ⟨c, hcm, hka⟩ := List.mem_flatMap.1 hka
    have hka := List.eq_of_mem_replicate hka
    have ek : a.kind = c.kind := congrArg (fun z => z.2.1) hka
    have eq : a.qni_wni = c.weight * G.P.q c.kind := congrArg (fun z => z.2.2) hka
    have ex : ∀ d, xb d + a.x d = c.pos d := fun d => congrFun (congrArg (fun z => z.1) hka) d
    obtain ⟨-, n, hn, en⟩ := h1 c hcm
    refine ⟨?_, n, hn, ?_⟩
    · show a.qni_wni = S.P.q a.kind
      rw [eq, hw1 c hcm, one_mul, ek]
      rfl
    · funext d
      show a.x d = _
      have := ex d
      rw [en, hps] at this
      linarith
  · intro n hn
    obtain ⟨j, L, s, hL, hf⟩ := calls_at (D := D) R.rnd init (InitDensity.posOf G (deckOf corner) r p) (InitDensity.cells G.c.ldims) 0 calls
      (InitDensity.cells_nodup _) (fun a _ b _ hab => spot_inj hdx (by
        funext d
        have := congrFun hab d
        rw [hps, hps] at this
        linarith)) hc n hn
    refine ⟨j, L, s, hL, fun k => ?_⟩
    have e1 : numAt (l'.map InitDensity.toPrt) k (spot S n) = (l'.map (InitDensity.key xb)).countP
        fun z => decide (z.2.1 = k ∧ z.1 = InitDensity.posOf G (deckOf corner) r p n) := by
      unfold numAt
      rw [List.countP_map, List.countP_map]
      refine List.countP_congr fun a _ => ?_
      simp only [Function.comp]
      refine decide_eq_true_iff.trans (Iff.trans ?_ decide_eq_true_iff.symm)
      simp only [InitDensity.toPrt, InitDensity.key]
      refine and_congr_right fun _ => ?_
      constructor
      · intro h
        funext d
        rw [hps, h]
      · intro h
        funext d
        have := congrFun h d
        rw [hps] at this
        linarith
    rw [e1, hkey, List.countP_flatMap]
    have e2 : calls.map (List.countP (fun z : R3 ℝ × ℕ × ℝ => decide (z.2.1 = k ∧ z.1 = InitDensity.posOf G (deckOf corner) r p n)) ∘
        fun c => List.replicate c.n_in_cell.toNat (c.pos, c.kind, c.weight * G.P.q c.kind)) =
        calls.map fun c => if c.pos = InitDensity.posOf G (deckOf corner) r p n then (if c.kind = k then c.n_in_cell.toNat else 0) else 0 := by
      refine List.map_congr_left fun c _ => ?_
      simp only [Function.comp, List.countP_replicate, decide_eq_true_eq]
      by_cases h1 : c.pos = InitDensity.posOf G (deckOf corner) r p n <;> by_cases h2 : c.kind = k <;> simp [h1, h2]
    have e3 : ∀ (cs : List (Offsets.Call ℝ)) (P : Offsets.Call ℝ → Prop) [DecidablePred P] (f : Offsets.Call ℝ → ℕ), (cs.map fun c => if P c then f c else 0).sum =
        ((cs.filter fun c => decide (P c)).map f).sum := by
      intro cs P _ f
      induction cs with
      | nil => rfl
      | cons c cs ih =>
        rw [List.map_cons, List.sum_cons, ih, List.filter_cons]
        by_cases hP : P c <;> simp [hP]
    rw [e2, e3 calls (fun c => c.pos = InitDensity.posOf G (deckOf corner) r p n), hf, List.map_map]
    clear hL hf
    induction L with
    | nil => rfl
    | cons o L ih =>
      rw [List.map_cons, List.sum_cons, ih, List.filter_cons]
      simp only [Function.comp]
      by_cases ho : o.2.kind = k <;> simp [ho]

/-- what an injection does: nothing if it is not due; otherwise it adds to every patch what the lambda asks for in each of its cells, given the
densities of the particles there are -/
theorem inject_some {S : Pic.Setup} {D : Driver} {corner : R3 ℝ} {i : StepIn} {prts T : ℕ → ℕ → List Push.Prt}
    (h : inject S D corner i prts = some T) :
    (¬ (0 < D.interval ∧ i.timestep % D.interval = 0) → T = prts) ∧
    (0 < D.interval ∧ i.timestep % D.interval = 0 → ∃ N, Moments.item (DeckRun.gridOf S D.kinds) .n (codeOf S) prts = some N ∧
      ∀ r p, S.c.D.Has r p → ∃ l, setupPatch S D corner (fun n => D.inject (fun k => N r p (k, n)) (posOf S D corner r p n)) (i.R r p) r p = some l ∧
        T r p = prts r p ++ l) := by
  unfold inject at h
  split_ifs at h with hd
  · refine ⟨fun h' => absurd hd h', fun _ => ?_⟩
    obtain ⟨N, hN, h⟩ := Option.bind_eq_some_iff.1 h
    exact ⟨N, hN, fun r p hh => setupParticles_some h hh⟩
  · exact ⟨fun _ => (Option.some.inj h).symm, fun h' => absurd h' hd⟩

end Psc.CellInject
