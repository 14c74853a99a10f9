import Verif.Lemmas.CudaPicPush
import Verif.Lemmas.Comm
import Verif.Lemmas.Serial

/-!
# Lemmas: exchange of particles that are partly on the GPU
-/

namespace Psc.Bndp

open Domain Ddc

section
variable {K : Type} [Field K] [LinearOrder K] [IsStrictOrderedRing K] [FloorRing K] {A A' : Type}

/-- another rest -/
def mapRest (ρ : A' → A) (q : Prt K A') : Prt K A := ⟨q.x, q.u, ρ q.rest⟩

theorem keepOf_mapRest (ρ : A' → A) (g : PatchP K) (q : Prt K A') :
    keepOf g (mapRest ρ q) = (keepOf g q).map (mapRest ρ) := by
  have h : (mapRest ρ q).x = q.x := rfl
  unfold keepOf fate
  rw [h]
  split_ifs <;> rfl

theorem sendOf_mapRest (ρ : A' → A) (g : PatchP K) (k : ℤ) (q : Prt K A') :
    sendOf g k (mapRest ρ q) = (sendOf g k q).map (mapRest ρ) := by
  have h : (mapRest ρ q).x = q.x := rfl
  unfold sendOf fate
  rw [h]
  by_cases h1 : Leaves g q.x
  · rw [if_pos h1, if_pos h1]; rfl
  · rw [if_neg h1, if_neg h1]
    by_cases h2 : IsZero (newDir g q.x)
    · rw [if_pos h2, if_pos h2]; rfl
    · rw [if_neg h2, if_neg h2]
      dsimp only
      split_ifs <;> rfl

theorem leaves_inside {g : PatchP K} {x : R3 K} (h : Inside g x) : ¬Leaves g x := by
  rintro ⟨d, hd⟩
  unfold LeftOpen at hd
  have := h d
  rcases hd with hd | hd
  · exact absurd hd.1 (not_lt.2 this.1)
  · exact absurd hd.1 (not_le.2 this.2)

theorem fate_inside {g : PatchP K} {q : Prt K A} (h : Inside g q.x) : fate g q = .keep q := by
  unfold fate
  rw [if_neg (leaves_inside h), newDir_inside h, if_pos (show IsZero fun _ => 0 from ⟨rfl, rfl, rfl⟩), newX_inside h, newU_inside h]

theorem filterMap_filter_some {α β : Type} (f : α → Option β) (p : α → Bool) (l : List α)
    (h : ∀ a ∈ l, p a = false → f a = none) : l.filterMap f = (l.filter p).filterMap f := by
  induction l with
  | nil => rfl
  | cons a l ih =>
    have ih' := ih fun a ha => h a (List.mem_cons_of_mem _ ha)
    rw [List.filter_cons]
    cases e : p a with
    | true => simp only [if_true]; rw [List.filterMap_cons, List.filterMap_cons, ih']
    | false =>
      rw [List.filterMap_cons, h a List.mem_cons_self e]
      exact ih'

theorem filterMap_id {α : Type} (f : α → Option α) (l : List α) (h : ∀ a ∈ l, f a = some a) : l.filterMap f = l := by
  induction l with
  | nil => rfl
  | cons a l ih =>
    rw [List.filterMap_cons, h a List.mem_cons_self]
    dsimp only
    rw [ih fun a ha => h a (List.mem_cons_of_mem _ ha)]

open Classical in
theorem keep_split (ρ : A' → A) (g : PatchP K) {prts : List (Prt K A)} {bufs : List (Prt K A')}
    (h : (bufs.map (mapRest ρ)).Perm (prts.filter fun q => ¬Inside g q.x)) :
    (prts.filterMap (keepOf g)).Perm
      ((prts.filter fun q => Inside g q.x) ++ (bufs.filterMap (keepOf g)).map (mapRest ρ)) := by
  have h1 : (prts.filterMap (keepOf g)).Perm (((prts.filter fun q => Inside g q.x) ++
      prts.filter fun q => ¬Inside g q.x).filterMap (keepOf g)) := by
    refine List.Perm.filterMap _ ?_
    have := (List.filter_append_perm (fun q : Prt K A => decide (Inside g q.x)) prts).symm
    refine this.trans (List.Perm.append_left _ (List.Perm.of_eq ?_))
    congr 1
    funext q
    by_cases hq : Inside g q.x <;> simp [hq]
  refine h1.trans ?_
  rw [List.filterMap_append]
  refine List.Perm.append (List.Perm.of_eq ?_) ?_
  · refine filterMap_id _ _ fun q hq => ?_
    unfold keepOf
    rw [fate_inside (of_decide_eq_true (List.mem_filter.1 hq).2)]
  · refine (h.symm.filterMap _).trans (List.Perm.of_eq ?_)
    rw [List.filterMap_map, List.map_filterMap]
    congr 1
    funext q
    exact keepOf_mapRest ρ g q

open Classical in
theorem send_split (ρ : A' → A) (g : PatchP K) {prts : List (Prt K A)} {bufs : List (Prt K A')}
    (h : (bufs.map (mapRest ρ)).Perm (prts.filter fun q => ¬Inside g q.x)) (k : ℤ) :
    (prts.filterMap (sendOf g k)).Perm ((bufs.filterMap (sendOf g k)).map (mapRest ρ)) := by
  rw [filterMap_filter_some (sendOf g k) (fun q => decide ¬Inside g q.x) prts fun q _ hq => by
    have : Inside g q.x := by
      by_contra h'
      rw [decide_eq_true h'] at hq
      exact Bool.noConfusion hq
    unfold sendOf
    rw [fate_inside this]]
  refine (h.symm.filterMap _).trans (List.Perm.of_eq ?_)
  rw [List.filterMap_map, List.map_filterMap]
  congr 1
  funext q
  exact sendOf_mapRest ρ g k q

end

theorem fromLocal_map {P P' : Type} {D : Decomp} (hD : D.Valid) (f : P' → P) {sb : SendBufs P} {sb' : SendBufs P'}
    (h : ∀ r p k, D.Has r p → (sb r p k).Perm ((sb' r p k).map f)) {me p : ℕ} (hp : D.Has me p) :
    (fromLocal D sb me p).Perm ((fromLocal D sb' me p).map f) := by
  unfold fromLocal
  rw [List.map_flatMap]
  refine List.Perm.flatMap_left _ fun dir hdir => ?_
  cases e : neiP D me p dir with
  | none => rfl
  | some rq =>
    obtain ⟨r, q⟩ := rq
    dsimp only
    by_cases hr : r = me
    · rw [if_pos hr, if_pos hr]
      refine h me q _ ?_
      rw [← hr]
      exact (Props.C26_neighbour_symm D hD me p r q dir hp (mem_dirs.1 hdir) (neiP_eq.1 e).2).1
    · rw [if_neg hr, if_neg hr]
      rfl

theorem fromRank_map {P P' : Type} {D : Decomp} (f : P' → P) {sb : SendBufs P} {sb' : SendBufs P'}
    (h : ∀ r p k, D.Has r p → (sb r p k).Perm ((sb' r p k).map f)) (me r p : ℕ) :
    (fromRank D sb me r p).Perm ((fromRank D sb' me r p).map f) := by
  unfold fromRank
  rw [List.map_flatMap]
  refine List.Perm.flatMap_left _ fun se hse => ?_
  unfold send_entries at hse
  obtain ⟨q, hq, h'⟩ := List.mem_flatMap.1 hse
  obtain ⟨dir, -, h''⟩ := List.mem_filterMap.1 h'
  have hq' : se.patch = q := by
    split at h''
    · split_ifs at h''
      rw [← Option.some.inj h'']
    · exact absurd h'' (Option.some_ne_none _).symm
  by_cases hs : se.nei_patch = p
  · rw [if_pos hs, if_pos hs]
    exact h r _ _ (has_iff.2 (by rw [hq']; exact List.mem_range.1 hq))
  · rw [if_neg hs, if_neg hs]
    rfl

section
variable {K : Type} [Field K] [LinearOrder K] [IsStrictOrderedRing K] [FloorRing K] {A A' : Type}

open Classical in
/-- If only the particles outside of their patch go through the exchange, they arrive where they would if all did. -/
theorem exchange_split (g : ExchP K) (hD : g.D.Valid) (hg : ∀ d, 0 < g.ldims d ∧ 0 < g.dx d) (ρ : A' → A)
    (prts : ℕ → ℕ → List (Prt K A)) (bufs : ℕ → ℕ → List (Prt K A')) (hn : AllNear g prts)
    (hb : ∀ r p, g.D.Has r p →
      ((bufs r p).map (mapRest ρ)).Perm ((prts r p).filter fun q => ¬Inside (g.patch r p) q.x)) :
    ∃ f f' : ℕ → ℕ → List _, ∀ me < g.D.counts.length, exchange g prts me = some (f me) ∧ exchange g bufs me = some (f' me) ∧
      ∀ p, g.D.Has me p →
        (f me p).Perm (((prts me p).filter fun q => Inside (g.patch me p) q.x) ++ (f' me p).map (mapRest ρ)) := by
  have hn' : AllNear g bufs := fun r p h q hq => by
    have : mapRest ρ q ∈ (bufs r p).map (mapRest ρ) := List.mem_map.2 ⟨q, hq, rfl⟩
    exact hn r p h _ (List.mem_filter.1 ((hb r p h).mem_iff.1 this)).1
  obtain ⟨pb, p1, p2⟩ := exchange_eq g hg prts hn
  obtain ⟨pb', p1', p2'⟩ := exchange_eq g hg bufs hn'
  have hs : ∀ r p k, g.D.Has r p → ((pb r p).send k).Perm (((pb' r p).send k).map (mapRest ρ)) := fun r p k h => by
    rw [p1 r p h, p1' r p h]
    exact send_split ρ _ (hb r p h) k
  refine ⟨_, _, fun me hme => ⟨(p2 me hme).trans (comm_eq hD _ _ me), (p2' me hme).trans (comm_eq hD _ _ me), fun p hp => ?_⟩⟩
  rw [List.map_append, List.map_append]
  rw [p1 me p hp, p1' me p hp]
  rw [List.map_flatMap, ← List.append_assoc, ← List.append_assoc]
  refine List.Perm.append (List.Perm.append ?_ (fromLocal_map hD _ hs hp)) ?_
  · exact keep_split ρ _ (hb me p hp)
  · exact List.Perm.flatMap_left _ fun r _ => fromRank_map _ hs me r p

end

end Psc.Bndp

namespace Psc.CudaPic

open Domain Ddc FieldStep
open Cuda CudaFlds CudaBnd
open Spec.CudaPic Spec.CudaFlds Spec.CudaBnd

variable {X : Setup} {C : Call → Prop}

/-- a particle that comes from nowhere -/
def fill (q : Push.Prt) : A2.Prt ℝ := ⟨q.x, q.u, q.qw, q.kind, 0, 0⟩

/-- a stored particle as the exchange sees it -/
def toBs (q : CudaPrts.Sto ℝ) : Bndp.Prt ℝ (ℝ × ℕ) := ⟨q.x, q.u, (q.qni_wni, q.kind)⟩

/-- what the exchange of the CPU knows of a particle -/
def less (a : ℝ × ℕ × ℕ × ℤ) : ℝ × ℕ := (a.1, a.2.1)

theorem inPatch_iff (hX : Fits X C) (r p : ℕ) (x : R3 ℝ) :
    CudaPrts.InPatch (X.env r) x ↔ Bndp.Inside (X.S.ex.patch r p) x := by
  unfold CudaPrts.InPatch Bndp.Inside
  refine forall_congr' fun d => ?_
  change 0 ≤ x d * (1 / X.S.P.dx d) ∧ x d * (1 / X.S.P.dx d) < ((X.S.c.ldims d).toNat : ℝ) ↔
    0 ≤ x d ∧ x d < X.S.c.ldims d * X.S.P.dx d
  have hd := hX.fit.dx d
  have hl : ((X.S.c.ldims d).toNat : ℝ) = X.S.c.ldims d := by
    have := hX.fit.pos d
    exact_mod_cast congrArg (Int.cast (R := ℝ)) (Int.toNat_of_nonneg this.le)
  rw [hl, mul_one_div, div_lt_iff₀ hd]
  refine and_congr ⟨fun h => ?_, fun h => div_nonneg h hd.le⟩ Iff.rfl
  have := mul_nonneg h hd.le
  rwa [div_mul_cancel₀ _ hd.ne'] at this

theorem has_of {r p : ℕ} (h : p < X.S.c.D.nr_patches r) : X.S.c.D.Has r p := has_iff.2 h

theorem getD_map_range {α : Type} (n p : ℕ) (h : p < n) (f : ℕ → List α) :
    ((List.range n).map f).getD p [] = f p := by
  rw [List.getD_eq_getElem?_getD, List.getElem?_map, List.getElem?_range h]
  rfl

open Classical in
/-- What a rank hands over. -/
theorem prep_ok (hX : Fits X C) {r : ℕ} {s : CudaPrts.State ℝ} {a : CudaPrts.Abs ℝ} (hs : Reach (X.env r) s a)
    (hph : a.ph = .pushed) {T : ℕ → List Push.Prt} (hin : ∀ p < X.S.c.D.nr_patches r, ∀ q ∈ T p, CudaPrts.InPatch (X.env r) q.x)
    (hT : ∃ p < X.S.c.D.nr_patches r, T p ≠ []) :
    ∃ s₁ sent, CudaPrts.prep (X.env r) s = some (s₁, sent) ∧
      ∀ p < X.S.c.D.nr_patches r, CudaPrts.stored (sent.getD p []) = (a.c p).filter fun q => ¬CudaPrts.InPatch (X.env r) q.x := by
  have ha : CudaPrts.Allowed (X.env r) a (.exchange ((List.range (X.S.c.D.nr_patches r)).map fun p => (T p).map fill)) := by
    refine ⟨by rw [hph]; decide, by rw [hph]; decide, by rw [List.length_map, List.length_range]; rfl, ?_, ?_⟩
    · intro l hl q hq
      obtain ⟨p, hp, rfl⟩ := List.mem_map.1 hl
      obtain ⟨q', hq', rfl⟩ := List.mem_map.1 hq
      exact hin p (List.mem_range.1 hp) q' hq'
    · intro h
      obtain ⟨p, hp, hne⟩ := hT
      have := h p hp
      change _ + CudaPrts.stored _ = 0 at this
      rw [getD_map_range _ _ hp] at this
      have h2 := (add_eq_zero.1 this).2
      unfold CudaPrts.stored at h2
      rw [Multiset.coe_eq_zero, List.map_eq_nil_iff, List.map_eq_nil_iff] at h2
      exact absurd h2 hne
  obtain ⟨⟨o, s', hst⟩, -, g3⟩ := CudaPrts.good (env_ok hX r) (Reach.rel (env_ok hX r) hs) ha
  obtain ⟨ho, -⟩ := g3 _ _ hst
  cases hst with
  | exchange h1 h2 => exact ⟨_, _, h1, fun p hp => ho.2 p hp⟩

open Classical in
/-- What a rank has after it has received particles. -/
theorem post_ok (hX : Fits X C) {r : ℕ} {s s₁ : CudaPrts.State ℝ} {a : CudaPrts.Abs ℝ} (hs : Reach (X.env r) s a)
    (hph : a.ph = .pushed) {sent : List (List (A2.Prt ℝ))} (h1 : CudaPrts.prep (X.env r) s = some (s₁, sent))
    {got : ℕ → List (A2.Prt ℝ)} (hin : ∀ p < X.S.c.D.nr_patches r, ∀ q ∈ got p, CudaPrts.InPatch (X.env r) q.x)
    {T : ℕ → List Push.Prt}
    (hg : ∀ p < X.S.c.D.nr_patches r, (a.c p).filter (fun q => CudaPrts.InPatch (X.env r) q.x) + CudaPrts.stored (got p) =
      ((T p).map sto : Multiset (CudaPrts.Sto ℝ)))
    (hT : ∃ p < X.S.c.D.nr_patches r, T p ≠ []) :
    ∃ s', CudaPrts.post (X.env r) s₁ ((List.range (X.S.c.D.nr_patches r)).map got) = some s' ∧ HasPrts X r s' T := by
  have hc : ∀ p < X.S.c.D.nr_patches r,
      (CudaPrts.after (X.env r) a (.exchange ((List.range (X.S.c.D.nr_patches r)).map got))).c p =
        ((T p).map sto : Multiset (CudaPrts.Sto ℝ)) := by
    intro p hp
    rw [← hg p hp]
    change _ + CudaPrts.stored _ = _
    rw [getD_map_range _ _ hp]
  have ha : CudaPrts.Allowed (X.env r) a (.exchange ((List.range (X.S.c.D.nr_patches r)).map got)) := by
    refine ⟨by rw [hph]; decide, by rw [hph]; decide, by rw [List.length_map, List.length_range]; rfl, ?_, ?_⟩
    · intro l hl q hq
      obtain ⟨p, hp, rfl⟩ := List.mem_map.1 hl
      exact hin p (List.mem_range.1 hp) q hq
    · intro h
      obtain ⟨p, hp, hne⟩ := hT
      have := h p hp
      rw [hc p hp, Multiset.coe_eq_zero, List.map_eq_nil_iff] at this
      exact absurd this hne
  obtain ⟨-, g2, -⟩ := CudaPrts.good (env_ok hX r) (Reach.rel (env_ok hX r) hs) ha
  cases e : CudaPrts.post (X.env r) s₁ ((List.range (X.S.c.D.nr_patches r)).map got) with
  | none => exact absurd (.post h1 e) g2
  | some s' =>
    refine ⟨s', rfl, _, Reach.step hs ha (.exchange h1 e), ?_, ?_, hc⟩
    · intro h; cases h
    · intro h; cases h

open Classical in
/-- The exchange of particles. -/
theorem exch_ok (hX : Fits X C) {γ : State} {prts T : ℕ → ℕ → List Push.Prt}
    (hm : ∀ r < X.size, HasMoved X r (γ r).prts (prts r)) (hn : Pic.PrtsNear X.S prts)
    (hT : Pic.exchangePrts X.S prts = some T) (hb : ∀ r < X.size, ∃ p < X.S.c.D.nr_patches r, T r p ≠ []) :
    ∃ γ', exch X γ = some γ' ∧
      ∀ r < X.size, (γ' r).mem = (γ r).mem ∧ (γ' r).cache = (γ r).cache ∧ HasPrts X r (γ' r).prts (T r) := by
  obtain ⟨T', hT', hins, -⟩ := Pic.exchange_global hX.fit hn
  rw [hT, Option.some.injEq] at hT'
  subst hT'
  have hin : ∀ r p, p < X.S.c.D.nr_patches r → ∀ q ∈ T r p, CudaPrts.InPatch (X.env r) q.x := fun r p hp q hq =>
    (inPatch_iff hX r p q.x).2 (hins r p (has_of hp) q hq)
  have h1 : ∀ r, ∃ a s₁ sent, r < X.size → Reach (X.env r) (γ r).prts a ∧ a.ph = .pushed ∧
      (∀ p < X.S.c.D.nr_patches r, a.c p = ((prts r p).map sto : Multiset (CudaPrts.Sto ℝ))) ∧
      CudaPrts.prep (X.env r) (γ r).prts = some (s₁, sent) ∧
      ∀ p < X.S.c.D.nr_patches r, CudaPrts.stored (sent.getD p []) = (a.c p).filter fun q => ¬CudaPrts.InPatch (X.env r) q.x := by
    intro r
    by_cases hr : r < X.size
    · obtain ⟨a, ha1, ha2, ha3⟩ := hm r hr
      obtain ⟨s₁, sent, h⟩ := prep_ok hX ha1 ha2 (hin r) (hb r hr)
      exact ⟨a, s₁, sent, fun _ => ⟨ha1, ha2, ha3, h⟩⟩
    · exact ⟨CudaPrts.Abs.init, (γ r).prts, [], fun h => absurd h hr⟩
  choose a s₁ sent h1 using h1
  set bufs : ℕ → ℕ → List (Bndp.Prt ℝ (ℝ × ℕ × ℕ × ℤ)) := fun r p =>
    (((((List.range X.size).map fun r => (s₁ r, sent r))[r]?).map Prod.snd).getD []).getD p [] |>.map toB with hbufs
  have hbufs' : ∀ r < X.size, ∀ p, bufs r p = ((sent r).getD p []).map toB := by
    intro r hr p
    rw [hbufs]
    dsimp only
    rw [List.getElem?_map, List.getElem?_range hr]
    rfl
  have hD : X.S.ex.D.Valid := hX.fit.valid.valid
  have hok : ∀ d, 0 < X.S.ex.ldims d ∧ 0 < X.S.ex.dx d := fun d => ⟨hX.fit.pos d, hX.fit.dx d⟩
  have near : Bndp.AllNear X.S.ex fun r p => (prts r p).map Pic.toB := by
    intro r p hh b hb d
    obtain ⟨q, hq, rfl⟩ := List.mem_map.1 hb
    exact (hn r p hh q hq d).1
  have hpart : ∀ r < X.size, ∀ p < X.S.c.D.nr_patches r,
      ((bufs r p).map (Bndp.mapRest less)).Perm (((prts r p).map Pic.toB).filter fun q => ¬Bndp.Inside (X.S.ex.patch r p) q.x) := by
    intro r hr p hp
    obtain ⟨-, -, h3, -, h5⟩ := h1 r hr
    have h6 := h5 p hp
    rw [h3 p hp, Multiset.filter_coe] at h6
    unfold CudaPrts.stored at h6
    have h7 := (Multiset.coe_eq_coe.1 h6).map toBs
    rw [hbufs' r hr p, List.map_map]
    refine List.Perm.trans (List.Perm.of_eq ?_) (h7.trans (List.Perm.of_eq ?_))
    · rw [List.map_map]
      rfl
    · rw [List.filter_map, List.filter_map, List.map_map]
      have : ∀ q : Push.Prt, decide (¬CudaPrts.InPatch (X.env r) q.x) = decide (¬Bndp.Inside (X.S.ex.patch r p) q.x) :=
        fun q => decide_eq_decide.2 (not_congr (inPatch_iff hX r p q.x))
      have e : ((fun q : CudaPrts.Sto ℝ => decide (¬CudaPrts.InPatch (X.env r) q.x)) ∘ sto) =
          ((fun q : Bndp.Prt ℝ (ℝ × ℕ) => decide (¬Bndp.Inside (X.S.ex.patch r p) q.x)) ∘ Pic.toB) := funext this
      rw [e]
      rfl
  obtain ⟨f, f', hf⟩ := Bndp.exchange_split X.S.ex hD hok less _ bufs near fun r p hh => hpart r hh.1 p (has_iff.1 hh)
  have hTf : ∀ r < X.size, ∀ p, T r p = (f r p).map Pic.ofB := by
    intro r hr p
    unfold Pic.exchangePrts at hT
    dsimp only at hT
    split_ifs at hT
    rw [← Option.some.inj hT]
    dsimp only
    rw [(hf r hr).1]
    rfl
  have h2 : ∀ r, ∃ s', r < X.size →
      CudaPrts.post (X.env r) (s₁ r) ((List.range (X.S.c.D.nr_patches r)).map fun p => (f' r p).map ofB) = some s' ∧
      HasPrts X r s' (T r) := by
    intro r
    by_cases hr : r < X.size
    · obtain ⟨b1, b2, b3, b4, b5⟩ := h1 r hr
      have hperm : ∀ p < X.S.c.D.nr_patches r, _ := fun p hp => (hf r hr).2.2 p (has_of hp)
      obtain ⟨s', h⟩ := post_ok hX b1 b2 b4 (got := fun p => (f' r p).map ofB) (T := T r) (fun p hp q hq => by
          obtain ⟨b, hb, rfl⟩ := List.mem_map.1 hq
          refine hin r p hp ⟨b.x, b.u, b.rest.1, b.rest.2.1⟩ ?_
          rw [hTf r hr p]
          refine List.mem_map.2 ⟨Bndp.mapRest less b, ?_, rfl⟩
          exact (hperm p hp).mem_iff.2 (List.mem_append_right _ (List.mem_map.2 ⟨b, hb, rfl⟩))) (fun p hp => by
          rw [b3 p hp, Multiset.filter_coe, hTf r hr p]
          unfold CudaPrts.stored
          rw [Multiset.coe_add, Multiset.coe_eq_coe]
          refine List.Perm.trans (List.Perm.of_eq ?_) (((hperm p hp).symm.map Pic.ofB).map sto)
          rw [List.map_append, List.map_append, List.map_map, List.map_map, List.map_map, List.filter_map, List.filter_map, List.map_map]
          refine congrArg₂ (· ++ ·) ?_ (by rw [List.map_map]; rfl)
          have : ∀ q : Push.Prt, decide (CudaPrts.InPatch (X.env r) q.x) = decide (Bndp.Inside (X.S.ex.patch r p) q.x) :=
            fun q => decide_eq_decide.2 (inPatch_iff hX r p q.x)
          have e : ((fun q : CudaPrts.Sto ℝ => decide (CudaPrts.InPatch (X.env r) q.x)) ∘ sto) =
              ((fun q : Bndp.Prt ℝ (ℝ × ℕ) => decide (Bndp.Inside (X.S.ex.patch r p) q.x)) ∘ Pic.toB) := funext this
          rw [e]
          rfl) (hb r hr)
      exact ⟨s', fun _ => h⟩
    · exact ⟨(γ r).prts, fun h => absurd h hr⟩
  choose s' h2 using h2
  refine ⟨fun r => match ((List.range X.size).map s')[r]? with
    | some s => { γ r with prts := s }
    | none => γ r, ?_, fun r hr => ?_⟩
  · unfold exch
    rw [CudaPrts.mapM_some (g := fun r => (s₁ r, sent r)) fun r hr => (h1 r (List.mem_range.1 hr)).2.2.2.1]
    rw [Option.bind_eq_bind, Option.bind_some]
    dsimp only
    rw [CudaPrts.mapM_some (g := s') fun r hr => ?_]
    · rfl
    · have hr := List.mem_range.1 hr
      rw [List.getElem?_map, List.getElem?_range hr]
      change ((Bndp.exchange X.S.ex bufs r).bind fun got => _) = _
      rw [(hf r hr).2.1]
      exact (h2 r hr).1
  · dsimp only
    rw [List.getElem?_map, List.getElem?_range hr]
    exact ⟨rfl, rfl, (h2 r hr).2⟩

end Psc.CudaPic
