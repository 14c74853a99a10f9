import Verif.Spec.InitDensity
import Verif.Lemmas.Moments
import Verif.Lemmas.SetupParticles
import Verif.Props.Adios2Prts
import Verif.Props.Moments

/-!
# Initial density: from the calls in every cell to the sum over the particles
-/

namespace Psc.InitDensity

open Domain Ddc Fields FieldStep Moments Spec

noncomputable section

/-! ### injection -/

/-- position in the domain, kind and charge of a particle of a patch -/
def key (xb : R3 ℝ) (a : A2.Prt ℝ) : R3 ℝ × ℕ × ℝ := (fun d => xb d + a.x d, a.kind, a.qni_wni)

/-- inside the patch -/
def Inside (G : Grid) (xb : R3 ℝ) (x : R3 ℝ) : Prop := ∀ d, xb d ≤ x d ∧ x d < xb d + G.c.ldims d * G.P.dx d

theorem kindsOf_get (G : Grid) {k : ℕ} (hk : k < G.kinds.length) : (kindsOf G)[k]? = some ⟨G.P.q k, G.P.m k, []⟩ := by
  simp [kindsOf, hk]

theorem injectN_spec {G : Grid} (hdx : ∀ d, 0 < G.P.dx d) (hl : ∀ d, 0 < G.c.ldims d) (mom : ℕ → R3 ℝ) (c : Offsets.Call ℝ)
    (hk : c.kind < G.kinds.length) : ∀ (cnt : ℕ) (P : A2.Patch ℝ), (∀ d, P.xe d = P.xb d + G.c.ldims d * G.P.dx d) →
      Inside G P.xb c.pos → ∃ l, injectN G mom c cnt P = some { P with prts := P.prts ++ l } ∧
        l.map (key P.xb) = List.replicate cnt (c.pos, c.kind, c.weight * G.P.q c.kind) := by
  intro cnt
  induction cnt with
  | zero => intro P _ _; exact ⟨[], by simp [injectN], rfl⟩
  | succ cnt ih =>
    intro P hP hin
    have hlt : ∀ d, c.pos d < P.xe d := fun d => by rw [hP d]; exact (hin d).2
    obtain ⟨prt, h1, -, h3, -, -, h6, h7⟩ := Props.C65_inject (kindsOf G) ⟨G.P.q c.kind, G.P.m c.kind, []⟩ G.P.dx G.c.ldims hdx hl P hP
      ⟨c.pos, mom P.prts.length, c.weight, c.kind, 0⟩ (kindsOf_get G hk)
      (fun d => ⟨(hin d).1, (hlt d).le⟩) P.prts.length
    obtain ⟨l, e, el⟩ := ih { P with prts := P.prts ++ [prt] } hP hin
    refine ⟨prt :: l, ?_, ?_⟩
    · rw [injectN, h1]
      refine e.trans ?_
      simp
    · rw [List.map_cons, List.replicate_succ]
      refine congrArg₂ _ ?_ el
      unfold key
      rw [h3, h6]
      refine congrArg₂ _ ?_ rfl
      funext d
      exact (h7 d).2.1 (hlt d)

theorem injectCalls_spec {G : Grid} (hdx : ∀ d, 0 < G.P.dx d) (hl : ∀ d, 0 < G.c.ldims d) (mom : ℕ → R3 ℝ) :
    ∀ (cs : List (Offsets.Call ℝ)) (P : A2.Patch ℝ), (∀ c ∈ cs, c.kind < G.kinds.length ∧ Inside G P.xb c.pos) →
      (∀ d, P.xe d = P.xb d + G.c.ldims d * G.P.dx d) →
      ∃ l, injectCalls G mom cs P = some { P with prts := P.prts ++ l } ∧
        l.map (key P.xb) = cs.flatMap fun c => List.replicate c.n_in_cell.toNat (c.pos, c.kind, c.weight * G.P.q c.kind) := by
  intro cs
  induction cs with
  | nil => intro P _ _; exact ⟨[], by simp [injectCalls], rfl⟩
  | cons c cs ih =>
    intro P h hP
    obtain ⟨l1, e1, k1⟩ := injectN_spec hdx hl mom c (h c (by simp)).1 c.n_in_cell.toNat P hP (h c (by simp)).2
    obtain ⟨l2, e2, k2⟩ := ih { P with prts := P.prts ++ l1 } (fun c' hc' => h c' (by simp [hc'])) hP
    refine ⟨l1 ++ l2, ?_, ?_⟩
    · rw [injectCalls, e1]
      refine e2.trans ?_
      simp
    · rw [List.map_append, k1, List.flatMap_cons]
      exact congrArg _ k2

/-! ### calls -/

theorem cellLoop_calls (P : Setup.Params ℝ) (hf : P.fractional = false) (hneu : P.neutralizing_population = -1) (rnd : ℕ → ℝ)
    (init : ℕ → Setup.Np ℝ → Setup.Np ℝ) (l : List (ℤ × Setup.Np ℝ)) (s s') (g : ℕ → ℝ)
    (h : Setup.cellLoop P rnd init P.n_populations 0 s = some (l, s')) :
    (l.map fun o => (o.1.toNat : ℝ) * Setup.getWeight P o.2.n o.1 * g o.2.kind).sum =
      ∑ pop ∈ Finset.range P.n_populations,
        (init pop (Setup.np0 P pop)).n * P.prts_per_unit_density * g (init pop (Setup.np0 P pop)).kind := by
  obtain ⟨hlen, hl⟩ := Setup.cellLoop_spec P rnd init _ _ s l s' h
  rw [← hlen, Finset.sum_range, ← List.sum_ofFn]
  congr 1
  apply List.ext_getElem
  · simp
  · intro i h1 h2
    have hi : i < l.length := by simpa using h1
    obtain ⟨ha, hb⟩ := hl i hi
    rw [Nat.zero_add] at ha hb
    obtain ⟨j, hj⟩ := hb (by rw [hneu]; omega)
    rw [List.getElem_map, List.getElem_ofFn]
    dsimp only
    rw [hf] at hj
    rw [← ha]
    congr 1
    generalize l[i] = o at *
    by_cases h0 : o.2.n = 0
    · rw [hj, h0]
      simp [Setup.get_n_in_cell]
    · have h1 : 1 ≤ o.1 := by rw [hj]; exact Setup.get_n_pos _ _ _ h0
      have e : ((o.1.toNat : ℕ) : ℝ) = (o.1 : ℝ) := by
        rw [← Int.cast_natCast, Int.toNat_of_nonneg (by omega)]
      have e' : (o.1 : ℝ) ≠ 0 := by
        have : (o.1 : ℤ) ≠ 0 := by omega
        exact_mod_cast this
      unfold Setup.getWeight
      rw [hf, e]
      simp only [Bool.false_eq_true, if_false]
      rw [mul_div_cancel₀ _ e']

theorem callsOf_spec (P : Setup.Params ℝ) (hf : P.fractional = false) (hneu : P.neutralizing_population = -1) (rnd : ℕ → ℝ)
    (init : I3 → ℕ → Setup.Np ℝ → Setup.Np ℝ) (pos : I3 → R3 ℝ) (g : R3 ℝ → ℕ → ℝ)
    (hk : ∀ n pop, pop < P.n_populations → (init n pop (Setup.np0 P pop)).kind < P.q.length) :
    ∀ (cs : List I3) (i : ℕ), ∃ calls, Offsets.callsOf P rnd init pos cs i = some calls ∧
      (∀ c ∈ calls, ∃ n ∈ cs, ∃ pop < P.n_populations, c.pos = pos n ∧ c.kind = (init n pop (Setup.np0 P pop)).kind) ∧
      (calls.map fun c => (c.n_in_cell.toNat : ℝ) * c.weight * g c.pos c.kind).sum =
        (cs.map fun n => ∑ pop ∈ Finset.range P.n_populations,
          (init n pop (Setup.np0 P pop)).n * P.prts_per_unit_density * g (pos n) (init n pop (Setup.np0 P pop)).kind).sum := by
  intro cs
  induction cs with
  | nil => intro i; exact ⟨[], rfl, by simp, by simp⟩
  | cons n cs ih =>
    intro i
    obtain ⟨⟨l, s⟩, hl⟩ := Setup.cellLoop_isSome P rnd (init n) P.n_populations 0 ⟨0, i⟩
      (fun j hj => by rw [Nat.zero_add]; exact hk n j hj) (fun j _ h => by rw [hneu] at h; omega)
    obtain ⟨calls, h1, h2, h3⟩ := ih s.pos
    refine ⟨l.map (fun o => ⟨o.1, o.2.kind, Setup.getWeight P o.2.n o.1, pos n⟩) ++ calls, ?_, ?_, ?_⟩
    · rw [Offsets.callsOf, hl]
      simp only [Option.bind_eq_bind, Option.bind_some]
      rw [h1]
      rfl
    · intro c hc
      rcases List.mem_append.1 hc with hc | hc
      · obtain ⟨o, ho, rfl⟩ := List.mem_map.1 hc
        obtain ⟨j, hj, rfl⟩ := List.mem_iff_getElem.1 ho
        obtain ⟨hlen, hs⟩ := Setup.cellLoop_spec P rnd (init n) _ _ _ l s hl
        have := (hs j hj).1
        rw [Nat.zero_add] at this
        exact ⟨n, by simp, j, by omega, rfl, by rw [this]⟩
      · obtain ⟨m, hm, pop, hpop, e⟩ := h2 c hc
        exact ⟨m, by simp [hm], pop, hpop, e⟩
    · rw [List.map_append, List.sum_append, h3, List.map_cons, List.sum_cons, List.map_map]
      congr 1
      exact cellLoop_calls P hf hneu rnd (init n) l _ s (g (pos n)) hl

/-! ### cells -/

theorem mem_cells (L : I3) (n : I3) : n ∈ cells L ↔ ∀ d, 0 ≤ n d ∧ n d < L d := by
  simp only [cells, List.mem_flatMap, List.mem_map, mem_rng]
  constructor
  · rintro ⟨i, hi, j, hj, k, hk, rfl⟩ d
    fin_cases d
    · exact hi
    · exact hj
    · exact hk
  · intro h
    refine ⟨n 0, h 0, n 1, h 1, n 2, h 2, ?_⟩
    funext d; fin_cases d <;> rfl

theorem rng_nodup (a b : ℤ) : (rng a b).Nodup :=
  List.Nodup.map (fun x y h => by simpa using h) List.nodup_range

theorem cells_nodup (L : I3) : (cells L).Nodup := by
  unfold cells
  have key : ∀ (l : List ℤ) (f : ℤ → List I3) (d : Fin 3), l.Nodup → (∀ i ∈ l, (f i).Nodup) → (∀ i ∈ l, ∀ n ∈ f i, n d = i) →
      (l.flatMap f).Nodup := by
    intro l f d hl hf hd
    rw [List.nodup_flatMap]
    refine ⟨hf, ?_⟩
    refine List.Pairwise.imp_of_mem ?_ hl
    intro a b ha hb hab n hna hnb
    exact hab ((hd a ha n hna).symm.trans (hd b hb n hnb))
  refine key _ _ 0 (rng_nodup _ _) (fun i _ => ?_) ?_
  · refine key _ _ 1 (rng_nodup _ _) (fun j _ => ?_) ?_
    · refine List.Nodup.map (fun x y h => ?_) (rng_nodup _ _)
      simpa using congrFun h 2
    · intro j _ n hn
      obtain ⟨k, -, rfl⟩ := List.mem_map.1 hn
      rfl
  · intro i _ n hn
    obtain ⟨j, -, hn⟩ := List.mem_flatMap.1 hn
    obtain ⟨k, -, rfl⟩ := List.mem_map.1 hn
    rfl

theorem cells_sum (c : Cfg) (f : I3 → ℝ) : ((cells c.ldims).map f).sum = ∑ n ∈ ownedCells c, f n := by
  have : ownedCells c = (cells c.ldims).toFinset := by
    ext n
    rw [mem_owned, List.mem_toFinset, mem_cells]
    rfl
  rw [this, List.sum_toFinset _ (cells_nodup _)]

/-! ### shares -/

theorem tent_int (a b : ℤ) : tent ((a : ℝ) - b) = if b = a then 1 else 0 := by
  unfold tent
  by_cases h : b = a
  · subst h; simp
  · rw [if_neg h]
    refine max_eq_left ?_
    have : (1 : ℤ) ≤ |a - b| := Int.one_le_abs (by omega)
    have h2 : (1 : ℝ) ≤ |(a : ℝ) - b| := by exact_mod_cast this
    linarith

theorem share_centre {C : Code} (hC : C.isCC = true) (y : R3 ℝ) (m n : I3) (hy : ∀ d, C.act d = true → y d = m d + 1 / 2)
    (hm : ∀ d, C.act d = false → m d = 0) : C.share y n = if n = m then 1 else 0 := by
  have hd : ∀ d, (if C.act d then tent (y d - 1 / 2 - (n d : ℝ)) else if n d = 0 then (1 : ℝ) else 0) = if n d = m d then 1 else 0 := by
    intro d
    cases hc : C.act d with
    | true =>
      rw [if_pos rfl, hy d hc, show (m d : ℝ) + 1 / 2 - 1 / 2 - n d = m d - n d by ring, tent_int]
    | false => simp [hm d hc]
  have e : C.share y n = tentRho C.act 1 (fun d => y d - 1/2) (n 0) (n 1) (n 2) := by
    cases C <;> first | rfl | (simp [Code.isCC] at hC)
  rw [e]
  unfold tentRho
  beta_reduce
  rw [hd 0, hd 1, hd 2]
  by_cases h : n = m
  · simp [h]
  · rw [if_neg h]
    have : ¬ (n 0 = m 0 ∧ n 1 = m 1 ∧ n 2 = m 2) := by
      rintro ⟨a, b, c⟩
      exact h (funext fun d => by fin_cases d <;> assumption)
    by_cases h0 : n 0 = m 0 <;> by_cases h1 : n 1 = m 1 <;> by_cases h2 : n 2 = m 2 <;> simp_all

theorem foldI_self {G : Grid} {C : Code} {m : I3} (hC : C.isCC = true) (hm : ∀ d, 0 ≤ m d ∧ m d < G.c.gdims d) : G.foldI C m = m := by
  funext d
  have := hm d
  unfold Grid.foldI Reflecting.mirrorCC
  rw [hC]
  split_ifs
  · exact Int.emod_eq_of_lt this.1 this.2
  · omega
  · omega
  · rfl
  all_goals simp_all

theorem spread_centre {G : Grid} {C : Code} (hC : C.isCC = true) {m : I3} (hm : ∀ d, 0 ≤ m d ∧ m d < G.c.gdims d) (y : R3 ℝ)
    (hy : ∀ d, C.act d = true → y d = m d + 1 / 2) (hm0 : ∀ d, C.act d = false → m d = 0) (x : I3) (a : ℝ) :
    (∑ n ∈ G.around, if G.foldI C n = x then a * C.share y n else 0) = if m = x then a else 0 := by
  have hmem : m ∈ G.around := by
    unfold Grid.around
    rw [Reflecting.mem_box]
    intro d
    have := hm d
    constructor <;> omega
  rw [Finset.sum_eq_single m]
  · rw [foldI_self hC hm, share_centre hC y m m hy hm0]
    simp
  · intro n _ hn
    rw [share_centre hC y m n hy hm0, if_neg hn]
    simp
  · exact fun h => absurd hmem h

/-! ### patches -/

theorem posOf_eq {G : Grid} (D : Deck) (r p : ℕ) (n : I3) : posOf G D r p n = point G D (fun d => G.c.off r p d + n d) := by
  funext d
  unfold posOf point xb
  push_cast
  split_ifs <;> ring

theorem np0_eq (G : Grid) (ppud : ℝ) (D : Deck) (pop : ℕ) : Setup.np0 (setupParams G ppud D) pop =
    { kind := if pop < G.kinds.length then pop else 0, n := 0, pkind := 0, tag := 0 } := by
  simp [Setup.np0, setupParams]

theorem setupPatch_spec {G : Grid} {C : Code} (h : G.Ok C) (ppud : ℝ) {D : Deck} (hD : D.Sound G) (R : Random) {r p : ℕ}
    (hp : G.c.D.Has r p) : ∃ l, setupPatch G ppud D R r p = some l ∧
      (∀ q ∈ l, q.kind < G.kinds.length ∧ G.P.q q.kind ≠ 0 ∧ ∀ d, 0 ≤ q.x d ∧ q.x d < G.c.ldims d * G.P.dx d) ∧
      ∀ g : R3 ℝ → ℕ → ℝ, (l.map fun q => weight G.P q * g (fun d => q.x d + G.c.off r p d * G.P.dx d) q.kind).sum =
        ∑ n ∈ ownedCells G.c, ∑ pop ∈ Finset.range (D.pops G), (D.asks G (fun d => G.c.off r p d + n d) pop).n * ppud *
          g (fun d => point G D (fun d => G.c.off r p d + n d) d - D.corner d) (D.asks G (fun d => G.c.off r p d + n d) pop).kind := by
  have hinit : ∀ n pop, D.init_np (posOf G D r p n) pop (Setup.np0 (setupParams G ppud D) pop) =
      D.asks G (fun d => G.c.off r p d + n d) pop := by
    intro n pop
    rw [posOf_eq, np0_eq]; rfl
  have hlen : (setupParams G ppud D).q.length = G.kinds.length := by simp [setupParams]
  have hpops : (setupParams G ppud D).n_populations = D.pops G := rfl
  have hk : ∀ n pop, pop < (setupParams G ppud D).n_populations →
      (D.init_np (posOf G D r p n) pop (Setup.np0 (setupParams G ppud D) pop)).kind < (setupParams G ppud D).q.length := by
    intro n pop hpop
    rw [hinit, hlen]
    exact (hD _ _ hpop).1
  have spec := fun g => callsOf_spec (setupParams G ppud D) rfl rfl R.rnd (fun n => D.init_np (posOf G D r p n))
    (posOf G D r p) g hk (cells G.c.ldims) 0
  obtain ⟨calls, hc, hmem, -⟩ := spec fun _ _ => 0
  have hsum : ∀ g : R3 ℝ → ℕ → ℝ, (calls.map fun c => (c.n_in_cell.toNat : ℝ) * c.weight * g c.pos c.kind).sum =
      ((cells G.c.ldims).map fun n => ∑ pop ∈ Finset.range (setupParams G ppud D).n_populations,
        (D.init_np (posOf G D r p n) pop (Setup.np0 (setupParams G ppud D) pop)).n * (setupParams G ppud D).prts_per_unit_density *
          g (posOf G D r p n) (D.init_np (posOf G D r p n) pop (Setup.np0 (setupParams G ppud D) pop)).kind).sum := by
    intro g
    obtain ⟨calls', hc', -, hs⟩ := spec g
    rw [hc] at hc'
    rw [Option.some.inj hc']
    exact hs
  have hxe : ∀ d, xe G D r p d = xb G D r p d + G.c.ldims d * G.P.dx d := by
    intro d; unfold xe xb; ring
  have hin : ∀ c ∈ calls, (c.kind < G.kinds.length ∧ G.P.q c.kind ≠ 0) ∧ Inside G (xb G D r p) c.pos := by
    intro c hcm
    obtain ⟨n, hn, pop, hpop, e1, e2⟩ := hmem c hcm
    rw [hinit] at e2
    refine ⟨by rw [e2]; exact hD _ _ hpop, fun d => ?_⟩
    have hd := (mem_cells _ _).1 hn d
    have h0 : (0 : ℝ) ≤ n d := by exact_mod_cast hd.1
    have h1 : (n d : ℝ) + 1 ≤ G.c.ldims d := by exact_mod_cast hd.2
    have hx := h.dx d
    rw [e1]
    unfold posOf
    split_ifs
    · constructor
      · have := mul_nonneg h0 hx.le; linarith
      · have := mul_lt_mul_of_pos_right (show (n d : ℝ) < G.c.ldims d by linarith) hx; linarith
    · constructor
      · have := mul_nonneg (show (0 : ℝ) ≤ n d + 1 / 2 by linarith) hx.le; linarith
      · have := mul_lt_mul_of_pos_right (show (n d : ℝ) + 1 / 2 < G.c.ldims d by linarith) hx; linarith
  obtain ⟨l, hl, hkey⟩ := injectCalls_spec h.dx h.pos R.mom calls ⟨xb G D r p, xe G D r p, []⟩
    (fun c hcm => ⟨(hin c hcm).1.1, (hin c hcm).2⟩) hxe
  dsimp only at hkey
  have hl' : setupPatch G ppud D R r p = some (l.map toPrt) := by
    unfold setupPatch
    rw [hc]
    simp only [Option.bind_eq_bind, Option.bind_some]
    rw [hl]
    simp
  refine ⟨l.map toPrt, hl', ?_, ?_⟩
  · intro q hq
    obtain ⟨a, ha, rfl⟩ := List.mem_map.1 hq
    have hka : key (xb G D r p) a ∈ l.map (key (xb G D r p)) := List.mem_map_of_mem ha
    rw [hkey] at hka
    obtain ⟨c, hcm, hka⟩ := List.mem_flatMap.1 hka
    have hka := List.eq_of_mem_replicate hka
    obtain ⟨⟨k1, k2⟩, k3⟩ := hin c hcm
    have ek : a.kind = c.kind := congrArg (fun z => z.2.1) hka
    have ex : ∀ d, xb G D r p d + a.x d = c.pos d := fun d => congrFun (congrArg (fun z => z.1) hka) d
    refine ⟨by show a.kind < _; rw [ek]; exact k1, by show G.P.q a.kind ≠ 0; rw [ek]; exact k2, fun d => ?_⟩
    have := k3 d
    have := ex d
    show 0 ≤ a.x d ∧ a.x d < _
    constructor <;> linarith
  · intro g
    have e1 : ((l.map toPrt).map fun q => weight G.P q * g (fun d => q.x d + G.c.off r p d * G.P.dx d) q.kind) =
        (l.map (key (xb G D r p))).map fun z => z.2.2 / G.P.q z.2.1 * g (fun d => z.1 d - D.corner d) z.2.1 := by
      rw [List.map_map, List.map_map]
      refine List.map_congr_left fun a _ => ?_
      simp only [Function.comp, key, toPrt, weight, xb]
      congr 2
      funext d
      ring
    rw [e1, hkey]
    have e2 := hsum fun y k => g (fun d => y d - D.corner d) k
    rw [cells_sum] at e2
    have e3 : ((calls.flatMap fun c => List.replicate c.n_in_cell.toNat (c.pos, c.kind, c.weight * G.P.q c.kind)).map
        fun z => z.2.2 / G.P.q z.2.1 * g (fun d => z.1 d - D.corner d) z.2.1).sum =
        (calls.map fun c => (c.n_in_cell.toNat : ℝ) * c.weight * g (fun d => c.pos d - D.corner d) c.kind).sum := by
      have hq : ∀ c ∈ calls, G.P.q c.kind ≠ 0 := fun c hcm => (hin c hcm).1.2
      clear hsum hin hkey hc hmem e2 hl
      induction calls with
      | nil => rfl
      | cons c cs ih =>
        rw [List.flatMap_cons, List.map_append, List.sum_append, ih fun c' hc' => hq c' (by simp [hc']), List.map_cons, List.sum_cons,
          List.map_replicate, List.sum_replicate, nsmul_eq_mul]
        dsimp only
        rw [mul_div_cancel_right₀ _ (hq c (by simp)), mul_assoc]
    rw [e3, e2]
    refine Finset.sum_congr rfl fun n _ => ?_
    rw [hpops]
    refine Finset.sum_congr rfl fun pop _ => ?_
    rw [hinit, posOf_eq]
    rfl

/-! ### density -/

theorem sum_flatMap' {α β : Type} (l : List α) (f : α → List β) (g : β → ℝ) :
    ((l.flatMap f).map g).sum = (l.map fun a => ((f a).map g).sum).sum := by
  induction l with
  | nil => rfl
  | cons a l ih => simp [ih]

theorem density_spec {G : Grid} {C : Code} (h : G.Ok C) (hC : C.isCC = true) (hF : Fits G C) (ppud : ℝ) {D : Deck}
    {prts : ℕ → ℕ → List Push.Prt} (v : ℕ → ℝ) (k : ℕ)
    (hs : ∀ r p, G.c.D.Has r p → ∀ g : R3 ℝ → ℕ → ℝ,
      ((prts r p).map fun q => weight G.P q * g (fun d => q.x d + G.c.off r p d * G.P.dx d) q.kind).sum =
        ∑ n ∈ ownedCells G.c, ∑ pop ∈ Finset.range (D.pops G), (D.asks G (fun d => G.c.off r p d + n d) pop).n * ppud *
          g (fun d => point G D (fun d => G.c.off r p d + n d) d - D.corner d) (D.asks G (fun d => G.c.off r p d + n d) pop).kind)
    {x : I3} (hx : ∀ d, 0 ≤ x d ∧ x d < G.c.gdims d) :
    density G C (fun q => weight G.P q * v q.kind) ((G.global prts).filter fun q => q.kind = k) x =
      G.P.fnqs * ppud * (v k * D.density G k x) := by
  rw [← density_filter]
  unfold density Grid.global
  rw [sum_flatMap']
  set g : R3 ℝ → ℕ → ℝ := fun y k' => if k' = k then
    v k' * (∑ n ∈ G.around, if G.foldI C n = x then G.P.fnqs * C.share (fun d => y d / G.P.dx d) n else 0) else 0 with hg
  have e1 : ∀ rp ∈ Bndp.allPatches G.c.D,
      ((((prts rp.1 rp.2).map fun q => { q with x := fun d => q.x d + G.c.off rp.1 rp.2 d * G.P.dx d }).map fun q : Push.Prt =>
        ∑ n ∈ G.around, if G.foldI C n = x then
          G.P.fnqs * (if decide (q.kind = k) = true then weight G.P q * v q.kind else 0) * C.share (fun d => q.x d / G.P.dx d) n else 0).sum) =
      ∑ n ∈ ownedCells G.c, if (fun d => G.c.off rp.1 rp.2 d + n d) = x then G.P.fnqs * ppud * (v k * D.density G k x) else 0 := by
    rintro ⟨r, p⟩ hrp
    have hp := Bndp.mem_allPatches.1 hrp
    rw [List.map_map]
    have e2 : (fun q : Push.Prt => weight G.P q * g (fun d => q.x d + G.c.off r p d * G.P.dx d) q.kind) =
        (fun q : Push.Prt => ∑ n ∈ G.around, if G.foldI C n = x then
          G.P.fnqs * (if decide (q.kind = k) = true then weight G.P q * v q.kind else 0) * C.share (fun d => q.x d / G.P.dx d) n else 0) ∘
          (fun q : Push.Prt => { q with x := fun d => q.x d + G.c.off r p d * G.P.dx d }) := by
      funext q
      simp only [Function.comp, hg, decide_eq_true_eq]
      by_cases hk : q.kind = k
      · rw [if_pos hk, ← mul_assoc, Finset.mul_sum]
        refine Finset.sum_congr rfl fun n _ => ?_
        rw [if_pos hk]
        split_ifs
        · unfold weight; ring
        · ring
      · rw [if_neg hk, mul_zero]
        symm
        refine Finset.sum_eq_zero fun n _ => ?_
        rw [if_neg hk]
        split_ifs
        · ring
        · rfl
    rw [← e2, hs r p hp g]
    refine Finset.sum_congr rfl fun n hn => ?_
    have hn := mem_owned.1 hn
    have hm : ∀ d, 0 ≤ G.c.off r p d + n d ∧ G.c.off r p d + n d < G.c.gdims d := interior_global h hp hn
    have hspread : (∑ j ∈ G.around, if G.foldI C j = x then G.P.fnqs * C.share
        (fun d => (point G D (fun d => G.c.off r p d + n d) d - D.corner d) / G.P.dx d) j else 0) =
        if (fun d => G.c.off r p d + n d) = x then G.P.fnqs else 0 := by
      refine spread_centre hC hm _ (fun d hd => ?_) (fun d hd => ?_) x G.P.fnqs
      · have hne : ¬ G.c.gdims d = 1 := fun h1 => by
          rw [(hF d).2 h1] at hd; cases hd
        unfold point
        rw [if_neg hne, add_sub_cancel_left, mul_div_cancel_right₀ _ (h.dx d).ne']
      · have := hm d
        have := (hF d).1 hd
        omega
    simp only [hg, hspread]
    by_cases hxx : (fun d => G.c.off r p d + n d) = x
    · simp only [if_pos hxx]
      rw [hxx]
      unfold Deck.density
      rw [Finset.mul_sum, Finset.mul_sum]
      refine Finset.sum_congr rfl fun pop _ => ?_
      split_ifs with hk
      · rw [hk]; ring
      · ring
    · simp only [if_neg hxx]
      refine Finset.sum_eq_zero fun pop _ => ?_
      split_ifs <;> ring
  rw [congrArg List.sum (List.map_congr_left e1), ← Pic.sum_patches fun rp => ∑ n ∈ ownedCells G.c,
    if (fun d => G.c.off rp.1 rp.2 d + n d) = x then G.P.fnqs * ppud * (v k * D.density G k x) else 0]
  refine (sumCells_global h.ok h.pos fun y => if y = x then G.P.fnqs * ppud * (v k * D.density G k x) else 0).trans ?_
  rw [Finset.sum_ite_eq' (globalCells G.c) x, if_pos (mem_globalCells.2 hx)]

theorem comp_n (G : Grid) {k : ℕ} (hk : k < G.kinds.length) :
    ∃ hm : k < (Moment.n.components G.kinds).length, (Moment.n.components G.kinds)[k] =
      ⟨"n" ++ "_" ++ G.kinds[k], fun q => q.kind = k, .number⟩ := by
  have h : (Moment.n.components G.kinds)[k]? = some ⟨"n" ++ "_" ++ G.kinds[k], fun q => q.kind = k, .number⟩ := by
    unfold Moment.components
    rw [perKind_get _ _ (by simp)]
    simp [hk, Nat.mod_one]
  exact List.getElem?_eq_some_iff.1 h

theorem comp_all (G : Grid) {k : ℕ} (hk : k < G.kinds.length) :
    ∃ hm : 13 * k < (Moment.all.components G.kinds).length, (Moment.all.components G.kinds)[13 * k] =
      ⟨"rho" ++ "_" ++ G.kinds[k], fun q => q.kind = k, .charge⟩ := by
  have h : (Moment.all.components G.kinds)[13 * k]? = some ⟨"rho" ++ "_" ++ G.kinds[k], fun q => q.kind = k, .charge⟩ := by
    unfold Moment.components
    rw [perKind_get _ _ (by simp)]
    simp [hk]
  exact List.getElem?_eq_some_iff.1 h

/-! ### normalisation -/

theorem normalization_some {prm : NormParams} {N : Norm} (h : normalization prm = some N) :
    0 < prm.nicell ∧ prm.lw = 2 * Real.pi ∧ prm.cc ≠ 0 ∧ prm.mm ≠ 0 ∧ prm.eps0 ≠ 0 ∧ prm.qq * prm.e0 ≠ 0 ∧
      N.prts_per_unit_density = prm.nicell ∧ N.cori = 1 / prm.nicell ∧ N.eta = prm.qq * prm.e0 / (prm.mm * prm.cc ^ 2) ∧
      N.beta = Real.sqrt (prm.tt / prm.mm) / prm.cc ∧
      N.fnqs = Real.sqrt (prm.qq ^ 2 * prm.n0 / prm.eps0 / prm.mm) ^ 2 / prm.cc ^ 2 * (1 / prm.nicell) / N.eta := by
  unfold normalization at h
  dsimp only at h
  split_ifs at h with h1 h2 h3 h4 h5 h6
  obtain ⟨hm, he, hc⟩ : prm.mm ≠ 0 ∧ prm.eps0 ≠ 0 ∧ prm.cc ≠ 0 := by
    refine ⟨fun e => h5 (Or.inl e), fun e => h5 (Or.inr (Or.inl e)), fun e => h5 (Or.inr (Or.inr e))⟩
  have hlw : prm.lw = 2 * Real.pi := by
    rw [div_eq_one_iff_eq h3, eq_div_iff h2] at h4
    have : prm.cc * prm.lw = prm.cc * (2 * Real.pi) := by linarith
    exact mul_left_cancel₀ hc this
  have hpi : (2 * Real.pi : ℝ) ≠ 0 := by positivity
  have hwl : 2 * Real.pi * prm.cc / prm.lw = prm.cc := by
    rw [hlw, mul_div_assoc, mul_div_cancel₀ _ hpi]
  rw [hwl] at h h6
  have heta : prm.qq * prm.e0 / (prm.mm * prm.cc) / prm.cc = prm.qq * prm.e0 / (prm.mm * prm.cc ^ 2) := by
    rw [div_div]; ring_nf
  rw [heta] at h h6
  have := Option.some.inj h
  subst this
  refine ⟨h1, hlw, hc, hm, he, fun e => h6 (by rw [e, zero_div]), rfl, rfl, rfl, rfl, ?_⟩
  dsimp only
  rw [div_pow]

end

end Psc.InitDensity
