import Verif.Lemmas.CudaMoments
import Verif.Props.CudaGrid

/-! Lemmas for moments on the GPU: the kernel, the walls and the ghost exchange -/

namespace Psc.CudaMom

open Domain Ddc FieldStep Moments
open Cuda CudaFlds CudaBnd CudaPic
open Spec.CudaPic Spec.CudaFlds Spec.CudaBnd Spec.CudaMom

variable {X : CudaPic.Setup} {C : Call → Prop} {I : Item}

/-! ## the kernel -/

theorem gdimX_yz (hF : Fits X C I) (h : I.dim = .yz) (r : ℕ) : (X.env r).g.gdimX = 1 ∧ X.S.c.ldims 0 = 1 := by
  have h1 := hF.grid.inv 0 (by rw [h]; cases I.k <;> rfl)
  have e1 : X.S.c.ldims 0 = 1 := h1.1
  have e2 : X.S.c.D.np 0 = 1 := h1.2.1
  refine ⟨?_, e1⟩
  show (X.S.c.D.np 0 * X.S.c.ldims 0).toNat = 1
  rw [e1, e2]
  rfl

theorem env_ok (hF : Fits X C I) (r : ℕ) : (X.env r).g.Ok := by
  refine ⟨fun d => (hF.blocks d).1, fun d => (hF.blocks d).2, fun h => ?_⟩
  rcases hF.dim with ⟨hd, hb⟩ | ⟨-, hx⟩
  · refine ⟨hb, ?_⟩
    show (X.S.c.ldims 0).toNat = 1
    rw [(gdimX_yz hF hd r).2]
    rfl
  · exfalso
    have h : (X.S.c.D.np 0 * X.S.c.ldims 0).toNat = 1 := h
    omega

theorem read_reorder {K : Type} [Field K] [LinearOrder K] [IsStrictOrderedRing K] [FloorRing K] {e : CudaPrts.Env K}
    {s s' : CudaPrts.State K} {l} (h : CudaPrts.read e s = some (s', l)) :
    CudaPrts.reorder s = some s' := by
  unfold CudaPrts.read at h
  obtain ⟨x, h1, h⟩ := Option.bind_eq_some_iff.1 h
  obtain ⟨y, h2, h⟩ := Option.bind_eq_some_iff.1 h
  obtain ⟨z, h3, h⟩ := Option.bind_eq_some_iff.1 h
  unfold CudaPrts.getParticles at h1
  obtain ⟨t, h4, h1⟩ := Option.bind_eq_some_iff.1 h1
  split_ifs at h1 with h5
  cases h1
  cases h
  exact h4

/-- the particles the kernel handles -/
theorem work_ok (hF : Fits X C I) {r : ℕ} (hyz : I.dim = .yz → (X.env r).g.bMx 1 = (X.env r).g.bMx 2)
    {s : CudaPrts.State ℝ} {a : CudaPrts.Abs ℝ} (hr : Reach (X.env r) s a) (hph : a.ph ≠ .pushed) (hn : s.n ≠ 0) :
    ∃ (t : CudaPrts.State ℝ) (w : List (Block × ℕ)) (Q : Block × ℕ → CudaPrts.Sto ℝ),
      CudaPrts.reorder s = some t ∧ t.need = false ∧ kernelWork t.off 512 (I.launches X r) = some w ∧
      (∀ x ∈ w, t.storage[x.2]? = some (Q x)) ∧
      CudaPrts.Observed (X.env r) a (.push fun _ q => q) (.work (w.map fun x => (x.1, Q x))) ∧
      Reach (X.env r) t (CudaPrts.after (X.env r) a .read) := by
  have hg := env_ok hF r
  have hrel := Reach.rel hg hr
  obtain ⟨t, B, h1, hb, -, hph'⟩ := CudaPrts.reorder_ok hg hrel
  have hn' : t.n ≠ 0 := by
    obtain ⟨o, s', hs⟩ := (CudaPrts.good_read hg hrel).1
    obtain ⟨-, h2⟩ := (CudaPrts.good_read hg hrel).2.2 _ _ hs
    cases hs with
    | read h =>
      have := read_reorder h
      rw [h1, Option.some.injEq] at this
      subst this
      intro h0
      exact hn ((n_zero hrel).2 ((n_zero h2).1 h0))
  have hfresh : CudaPrts.PhaseOk (X.env r) B t .fresh := by
    cases e : a.ph with
    | fresh => rw [e, if_neg (by simp)] at hph'; exact hph'
    | pushed => exact absurd e hph
    | exchanged => rw [e, if_pos rfl] at hph'; exact hph'
    | cleared => rw [e, if_neg (by simp)] at hph'; exact absurd hph'.2 hn'
  have hneed : t.need = false := by
    cases e : t.need with
    | false => rfl
    | true => exact absurd (hfresh.1.need e) hn'
  have hO : Offsets (X.env r).g t.off (CudaPrts.pre B) := hb.off
  have hw : ∃ w, kernelWork t.off 512 (I.launches X r) = some w ∧ w.Perm (allParticles (X.env r).g (CudaPrts.pre B)) := by
    unfold Item.launches
    rcases hF.dim with ⟨hd, -⟩ | ⟨hd, -⟩
    · rw [hd]
      exact Props.C68_moments_yz_partial _ (gdimX_yz hF hd r).1 (hyz hd) _ _ hO 512 (by omega)
    · rw [hd]
      exact Props.C68_xyz _ _ _ hO 512 (by omega) _ (.inl rfl)
  obtain ⟨w, hw1, hw2⟩ := hw
  obtain ⟨w₀, hw3, hw4⟩ := CudaPrts.work_exists (e := X.env r) hb.off
  have hiw : CudaPrts.IsWork (X.env r) t w := ⟨w₀, hw3, hw2.trans hw4.symm⟩
  have hpu : ∀ i, CudaPrts.pushed t i = t.storage[i]? := fun i => by
    unfold CudaPrts.pushed
    rw [hneed]
    rfl
  obtain ⟨h2, l, h3, h4⟩ := CudaPrts.push_observed hg hb hfresh.2 hiw (fun i _ => by rw [hpu, hfresh.1.storage]) fun _ q => q
  have hQ : ∀ x ∈ w, t.storage[x.2]? = some ((t.storage[x.2]?).getD default) := fun x hx => by
    have := h2 x hx
    rw [hpu] at this
    obtain ⟨q, hq⟩ := Option.ne_none_iff_exists'.1 this
    rw [hq, Option.getD_some]
  refine ⟨t, w, fun x => (t.storage[x.2]?).getD default, h1, hneed, hw1, hQ, ?_, ?_⟩
  · have : w.mapM (fun w => (CudaPrts.pushed t w.2).map fun q => (w.1, q)) =
        some (w.map fun x => (x.1, (t.storage[x.2]?).getD default)) :=
      CudaPrts.mapM_some fun x hx => by rw [hpu, hQ x hx]; rfl
    rw [h3, Option.some.injEq] at this
    rwa [this] at h4
  · obtain ⟨o, s', hs⟩ := (CudaPrts.good_read hg hrel).1
    have hst := Reach.step hr (i := .read) trivial hs
    cases hs with
    | read h =>
      have := read_reorder h
      rw [h1, Option.some.injEq] at this
      rwa [this]

theorem hasPrts_read {r : ℕ} {t : CudaPrts.State ℝ} {a : CudaPrts.Abs ℝ} {prts : ℕ → List Push.Prt}
    (h : Reach (X.env r) t (CudaPrts.after (X.env r) a .read)) (hph : a.ph ≠ .pushed) (hph2 : a.ph ≠ .cleared)
    (ha : ∀ p < X.S.c.D.nr_patches r, a.c p = ((prts p).map sto : Multiset (CudaPrts.Sto ℝ))) : HasPrts X r t prts := by
  refine ⟨_, h, ?_, ?_, ha⟩
  · show (if a.ph = .exchanged then CudaPrts.Phase.fresh else a.ph) ≠ .pushed
    split_ifs with h
    · simp
    · exact hph
  · show (if a.ph = .exchanged then CudaPrts.Phase.fresh else a.ph) ≠ .cleared
    split_ifs with h
    · simp
    · exact hph2

/-- an addition for a particle of patch `p` as an event -/
def ev (p : ℕ) (e : ℕ × Add ℝ) : Ev ℝ := ⟨p, (e.1, ![e.2.i, e.2.j, e.2.k]), e.2.v⟩

theorem kernel_eq (hF : Fits X C I) {r : ℕ} {t : CudaPrts.State ℝ} {w : List (Block × ℕ)} {Q : Block × ℕ → CudaPrts.Sto ℝ}
    (hQ : ∀ x ∈ w, t.storage[x.2]? = some (Q x))
    (hk : ∀ x ∈ w, (Q x).kind < I.kinds.length ∧ X.S.P.q (Q x).kind ≠ 0) :
    I.kernel X r w t = some (((w.map fun x => (x.1, Q x)).flatMap fun x =>
      (cpuAdds X.S.P I.k I.dim (ofSto x.2)).map (ev x.1.p)).map fun e => (place (I.lay X r) e.patch e.cell, e.val)) := by
  unfold Item.kernel
  rw [CudaPrts.mapM_some (g := fun x => (cpuAdds X.S.P I.k I.dim (ofSto (Q x))).map fun e =>
    (place (I.lay X r) x.1.p (e.1, ![e.2.i, e.2.j, e.2.k]), e.2.v)) fun x hx => by
      simp only [Option.bind_eq_bind]
      rw [hQ x hx, Option.bind_some, adds_cpu X.S.P I.k I.dim (hk x hx).1 (hk x hx).2, Option.bind_some, List.map_map]
      rfl]
  simp only [Option.bind_eq_bind, Option.bind_some, List.flatMap_map, List.map_flatMap, List.map_map]
  rfl

theorem atomicAdds_eq {k : Call} {r : ℕ} {S : RankState ℝ} {M : List ℝ} (hM : Stores (k.layout r) S M) (l : List (Ev ℝ))
    (h : ∀ e ∈ l, Has (k.layout r) e.patch e.cell) :
    ∃ M', atomicAdds (l.map fun e => (place (k.layout r) e.patch e.cell, e.val)) M = some M' ∧
      Stores (k.layout r) (l.foldl (app fun old v => old + v) S) M' := by
  obtain ⟨M', h1, h2⟩ := scatter_eq (k := k) (rank := r) (fun old v : ℝ => old + v) l hM h
  refine ⟨M', ?_, h2⟩
  unfold atomicAdds
  rw [List.mapM_map, CudaPrts.mapM_some (g := toPair k r)]
  · exact h1
  · intro e he
    dsimp only [Function.comp]
    rw [place_eq (h e he)]
    unfold nat?
    rw [if_pos (Int.natCast_nonneg _)]
    rfl

theorem sum_ev (p p' : ℕ) (mn : ℕ × I3) (l : List (ℕ × Add ℝ)) :
    (l.map fun a => if p' = (ev p a).patch ∧ mn = (ev p a).cell then (ev p a).val else 0).sum =
      if p' = p then valuesOf l mn else 0 := by
  by_cases hp : p' = p
  · rw [if_pos hp]
    unfold valuesOf
    refine congrArg List.sum (List.map_congr_left fun a _ => ?_)
    refine if_congr ?_ rfl rfl
    unfold ev
    dsimp only
    constructor
    · rintro ⟨-, rfl⟩
      exact ⟨rfl, rfl, rfl, rfl⟩
    · rintro ⟨h1, h2, h3, h4⟩
      refine ⟨hp, ?_⟩
      rw [h1, h2, h3, h4]
      obtain ⟨m, n⟩ := mn
      congr 1
      funext d
      fin_cases d <;> rfl
  · rw [if_neg hp]
    refine List.sum_eq_zero fun x hx => ?_
    obtain ⟨a, -, rfl⟩ := List.mem_map.1 hx
    exact if_neg fun h => hp h.1

theorem sum_events {A : Push.Prt → List (ℕ × Add ℝ)} {l : List (Block × CudaPrts.Sto ℝ)} {prts : List Push.Prt} {p : ℕ}
    (hl : ((l.filter fun w => w.1.p = p).map Prod.snd : Multiset (CudaPrts.Sto ℝ)) = (prts.map sto : Multiset (CudaPrts.Sto ℝ)))
    (mn : ℕ × I3) :
    ((l.flatMap fun w => (A (ofSto w.2)).map (ev w.1.p)).map fun e => if p = e.patch ∧ mn = e.cell then e.val else 0).sum =
      valuesOf (prts.flatMap A) mn := by
  rw [valuesOf_flatMap]
  have h1 : ((l.flatMap fun w => (A (ofSto w.2)).map (ev w.1.p)).map fun e => if p = e.patch ∧ mn = e.cell then e.val else 0).sum =
      (l.map fun w => if w.1.p = p then valuesOf (A (ofSto w.2)) mn else 0).sum := by
    clear hl
    induction l with
    | nil => rfl
    | cons w l ih =>
      rw [List.flatMap_cons, List.map_append, List.sum_append, ih, List.map_cons, List.sum_cons, List.map_map]
      congr 1
      refine (sum_ev w.1.p p mn (A (ofSto w.2))).trans ?_
      by_cases h : w.1.p = p
      · rw [if_pos h, if_pos h.symm]
      · rw [if_neg h, if_neg fun h' => h h'.symm]
  rw [h1, CudaPic.sum_filter]
  have h2 : (l.filter fun w => w.1.p = p).map (fun w => valuesOf (A (ofSto w.2)) mn) =
      ((l.filter fun w => w.1.p = p).map Prod.snd).map fun q => valuesOf (A (ofSto q)) mn := by
    rw [List.map_map]
    rfl
  rw [h2, ((Multiset.coe_eq_coe.1 hl).map _).sum_eq, List.map_map]
  rfl

/-- what the CPU deposits on a patch -/
theorem deposited_eq (hF : Fits X C I) {ps : List Push.Prt}
    (h : ∀ q ∈ ps, q.kind < I.kinds.length ∧ X.S.P.q q.kind ≠ 0 ∧ ∀ d, 0 ≤ q.x d ∧ q.x d < X.S.c.ldims d * X.S.P.dx d) :
    deposited (grid I X) (moment I.k) (code I.k I.dim) ps = some (valuesOf (ps.flatMap (cpuAdds X.S.P I.k I.dim))) := by
  unfold deposited
  rw [accumulate_eq (grid I X) (moment I.k) (code I.k I.dim) ps fun q hq => (h q hq).2.1]
  simp only [Option.bind_eq_bind, Option.bind_some]
  refine (if_pos fun e he => ?_).trans rfl
  obtain ⟨q, hq, he⟩ := List.mem_flatMap.1 he
  exact cpuAdds_in hF (h q hq).1 (h q hq).2.2 e he

/-- what the CPU deposits on the patches of a rank -/
noncomputable def dep (I : Item) (X : CudaPic.Setup) (prts : ℕ → List Push.Prt) : RankState ℝ := fun p =>
  (deposited (grid I X) (moment I.k) (code I.k I.dim) (prts p)).getD fun _ => 0

/-- The kernel on a rank. -/
theorem kernelR_ok (hF : Fits X C I) {r : ℕ} (hr : r < X.size) (hyz : I.dim = .yz → (X.env r).g.bMx 1 = (X.env r).g.bMx 2) {s : Rank}
    {prts : ℕ → List Push.Prt} (hs : HasPrts X r s.prts prts)
    (hp : ∀ p < X.S.c.D.nr_patches r, ∀ q ∈ prts p, q.kind < I.kinds.length ∧ X.S.P.q q.kind ≠ 0 ∧
      ∀ d, 0 ≤ q.x d ∧ q.x d < X.S.c.ldims d * X.S.P.dx d)
    (hM : Stores (I.lay X r) (fun _ _ => 0) s.mem) :
    (∃ o, KernelR I X r s o) ∧ ∀ o, KernelR I X r s o → ∃ s', o = some s' ∧ s'.cache = s.cache ∧
      HasPrts X r s'.prts prts ∧ Stores (I.lay X r) (dep I X prts) s'.mem := by
  obtain ⟨a, hra, hph, hph2, ha⟩ := id hs
  have hrel := Reach.rel (env_ok hF r) hra
  by_cases hn : s.prts.n = 0
  · have key : ∀ o, KernelR I X r s o → ∃ s', o = some s' ∧ s'.cache = s.cache ∧
        HasPrts X r s'.prts prts ∧ Stores (I.lay X r) (dep I X prts) s'.mem := by
      intro o ho
      cases ho with
      | idle h =>
        refine ⟨s, rfl, rfl, hs, hM.1, fun p hp' m hm n hn' => ?_⟩
        rw [hM.2 p hp' m hm n hn']
        have h0 := (n_zero hrel).1 hn p hp'
        have e : prts p = [] := by
          rw [ha p hp', Multiset.coe_eq_zero, List.map_eq_nil_iff] at h0
          exact h0
        unfold dep
        rw [deposited_eq hF (hp p hp'), Option.getD_some, e]
        rfl
      | reorder h _ => exact absurd hn h
      | need h _ _ _ => exact absurd hn h
      | kinds h _ => exact absurd hn h
      | offsets h _ _ _ _ => exact absurd hn h
      | fail h _ _ _ _ _ _ => exact absurd hn h
      | run h _ _ _ _ _ _ _ _ _ _ => exact absurd hn h
    exact ⟨⟨_, .idle s hn⟩, key⟩
  · obtain ⟨t, w, Q, h1, h2, h3, h4, ⟨-, h5, h6⟩, h7⟩ := work_ok hF hyz hra hph hn
    have hmem : ∀ x ∈ w, ∃ q ∈ prts x.1.p, Q x = sto q := by
      intro x hx
      have hx' : (x.1, Q x) ∈ w.map fun x => (x.1, Q x) := List.mem_map.2 ⟨x, hx, rfl⟩
      have hlt : x.1.p < X.S.c.D.nr_patches r := h5 _ hx'
      have h := h6 _ hlt
      rw [ha _ hlt] at h
      have : Q x ∈ (((prts x.1.p).map sto : List _) : Multiset (CudaPrts.Sto ℝ)) := by
        rw [← h, Multiset.mem_coe]
        exact List.mem_map.2 ⟨_, List.mem_filter.2 ⟨hx', by simp⟩, rfl⟩
      rw [Multiset.mem_coe] at this
      obtain ⟨q, hq, e⟩ := List.mem_map.1 this
      exact ⟨q, hq, e.symm⟩
    have hlt : ∀ x ∈ w, x.1.p < X.S.c.D.nr_patches r := fun x hx => h5 _ (List.mem_map.2 ⟨x, hx, rfl⟩)
    have hk : ∀ x ∈ w, (Q x).kind < I.kinds.length ∧ X.S.P.q (Q x).kind ≠ 0 := by
      intro x hx
      obtain ⟨q, hq, e⟩ := hmem x hx
      rw [e]
      have := hp _ (hlt x hx) q hq
      exact ⟨this.1, this.2.1⟩
    have hker := kernel_eq hF (r := r) h4 hk
    have key : ∀ o, KernelR I X r s o → ∃ s', o = some s' ∧ s'.cache = s.cache ∧
        HasPrts X r s'.prts prts ∧ Stores (I.lay X r) (dep I X prts) s'.mem := by
      intro o ho
      cases ho with
      | idle h => exact absurd h hn
      | reorder h hr => rw [hr] at h1; exact absurd h1.symm (Option.some_ne_none _)
      | need h t' hr' hn' =>
        rw [h1, Option.some.injEq] at hr'
        rw [← hr', h2] at hn'
        exact absurd hn' (by simp)
      | kinds h hk => exact absurd hF.kinds (by omega)
      | offsets h t' hr' hn' hw =>
        rw [h1, Option.some.injEq] at hr'
        rw [← hr', h3] at hw
        exact absurd hw (Option.some_ne_none _)
      | fail h t' hr' hn' w' hw hk' =>
        rw [h1, Option.some.injEq] at hr'
        subst hr'
        rw [h3, Option.some.injEq] at hw
        subst hw
        rw [hker] at hk'
        exact absurd hk' (Option.some_ne_none _)
      | run h hk4 t' hr' hn' w' hw l l' hk' hl' =>
        rw [h1, Option.some.injEq] at hr'
        subst hr'
        rw [h3, Option.some.injEq] at hw
        subst hw
        rw [hker, Option.some.injEq] at hk'
        subst hk'
        obtain ⟨evs, hpm, rfl⟩ := perm_map hl'
        have hev : ∀ e ∈ evs, Has ((I.call X).layout r) e.patch e.cell := by
          intro e he
          obtain ⟨y, hy, he⟩ := List.mem_flatMap.1 (hpm.mem_iff.1 he)
          obtain ⟨x, hx, rfl⟩ := List.mem_map.1 hy
          obtain ⟨b, hb, rfl⟩ := List.mem_map.1 he
          obtain ⟨q, hq, e⟩ := hmem x hx
          have hq' := hp _ (hlt x hx) q hq
          dsimp only at hb
          rw [e, ofSto_sto] at hb
          obtain ⟨h8, h9⟩ := cpuAdds_in hF hq'.1 hq'.2.2 b hb
          rw [← n_comps] at h8
          refine ⟨fun d => ?_, h8, hlt x hx⟩
          obtain ⟨i0, i1, i2⟩ := h9
          fin_cases d
          · exact i0
          · exact i1
          · exact i2
        obtain ⟨M', h8, h9⟩ := atomicAdds_eq (k := I.call X) (r := r) hM evs hev
        have h8 : atomicAdds (evs.map fun e => (place (I.lay X r) e.patch e.cell, e.val)) s.mem = some M' := h8
        rw [h8]
        refine ⟨_, rfl, rfl, hasPrts_read h7 hph hph2 ha, h9.1, fun p hp' m hm n hn' => ?_⟩
        refine (h9.2 p hp' m hm n hn').trans ?_
        congr 1
        rw [foldl_add, (hpm.map _).sum_eq, zero_add, sum_events (A := cpuAdds X.S.P I.k I.dim) ((h6 p hp').trans (ha p hp'))]
        unfold dep
        rw [deposited_eq hF (hp p hp'), Option.getD_some]
        rfl
    exact ⟨⟨_, .run s hn hF.kinds t h1 h2 w h3 _ _ hker (List.Perm.refl _)⟩, key⟩

/-! ## walls -/

/-- what is stored of a patch -/
def In (X : CudaPic.Setup) (n : I3) : Prop := ∀ d, -X.S.c.ibn d ≤ n d ∧ n d < X.S.c.ldims d + X.S.c.ibn d

theorem foldAt_congr (d : Fin 3) (c : ℤ) (S : I3 → Prop) (l : List I3)
    (hl : ∀ i ∈ l, S (Function.update i d (c - i d)) ∧ S i) (f g : I3 → ℝ) (h : ∀ n, S n → f n = g n) :
    ∀ n, S n → l.foldl (Reflecting.foldAt d c) f n = l.foldl (Reflecting.foldAt d c) g n := by
  induction l generalizing f g with
  | nil => exact h
  | cons i l ih =>
    refine ih (fun j hj => hl j (List.mem_cons_of_mem _ hj)) _ _ fun n hn => ?_
    unfold Reflecting.foldAt
    have := hl i List.mem_cons_self
    by_cases hni : n = i
    · subst hni
      rw [Function.update_self, Function.update_self, h _ this.1, h _ this.2]
    · rw [Function.update_of_ne hni, Function.update_of_ne hni, h n hn]

theorem wall_congr (hF : Fits X C I) (r p : ℕ) {F G : PF ℝ} (m : ℕ) (h : ∀ n, In X n → F (m, n) = G (m, n)) {n : I3} (hn : In X n) :
    foldWalls (grid I X) (code I.k I.dim) r p F (m, n) = foldWalls (grid I X) (code I.k I.dim) r p G (m, n) := by
  have hb : ∀ d, 0 ≤ X.S.c.ibn d ∧ X.S.c.ibn d ≤ X.S.c.ldims d ∧ 1 ≤ X.S.c.ldims d := by
    intro d
    have h1 := hF.grid.ok.ibn d
    have h2 := hF.grid.pos d
    have h1' : 0 ≤ X.S.c.ibn d ∧ _ := h1
    have h2' : 0 < X.S.c.ldims d := h2
    exact ⟨h1'.1, h1'.2, h2'⟩
  have upd : ∀ (d : Fin 3) (c : ℤ) (i : I3), (∀ e, e ≠ d → -X.S.c.ibn e ≤ i e ∧ i e < X.S.c.ldims e + X.S.c.ibn e) →
      (-X.S.c.ibn d ≤ i d ∧ i d < X.S.c.ldims d + X.S.c.ibn d) → (-X.S.c.ibn d ≤ c - i d ∧ c - i d < X.S.c.ldims d + X.S.c.ibn d) →
      In X (Function.update i d (c - i d)) ∧ In X i := by
    intro d c i h1 h2 h3
    refine ⟨fun e => ?_, fun e => ?_⟩
    · by_cases he : e = d
      · subst he; rw [Function.update_self]; exact h3
      · rw [Function.update_of_ne he]; exact h1 e he
    · by_cases he : e = d
      · subst he; exact h2
      · exact h1 e he
  have un : ∀ e, 0 ≤ Reflecting.unused (fun d => -X.S.c.ibn d) e ∧ Reflecting.unused (fun d => -X.S.c.ibn d) e ≤ 1 := by
    intro e
    unfold Reflecting.unused
    beta_reduce
    split_ifs <;> omega
  have un' : ∀ e, X.S.c.ibn e = 0 ∧ Reflecting.unused (fun d => -X.S.c.ibn d) e = 0 ∨
      0 < X.S.c.ibn e ∧ Reflecting.unused (fun d => -X.S.c.ibn d) e = 1 := by
    intro e
    have := (hb e).1
    unfold Reflecting.unused
    beta_reduce
    split_ifs <;> omega
  have locc : ∀ (d : Fin 3) (f g : I3 → ℝ), (∀ n, In X n → f n = g n) → ∀ n, In X n →
      Reflecting.lo_cc X.S.c.ldims (fun d => -X.S.c.ibn d) d f n = Reflecting.lo_cc X.S.c.ldims (fun d => -X.S.c.ibn d) d g n := by
    intro d f g
    refine foldAt_congr d _ (In X) _ (fun i hi => ?_) f g
    rw [Reflecting.mem_boxLoop] at hi
    have hd := hi d
    rw [Function.update_self, Function.update_self] at hd
    beta_reduce at hd
    have := hb d
    refine upd d _ i (fun e he => ?_) (by omega) (by omega)
    have := hi e
    rw [Function.update_of_ne he, Function.update_of_ne he] at this
    beta_reduce at this
    omega
  have hicc : ∀ (d : Fin 3) (f g : I3 → ℝ), (∀ n, In X n → f n = g n) → ∀ n, In X n →
      Reflecting.hi_cc X.S.c.ldims (fun d => -X.S.c.ibn d) d f n = Reflecting.hi_cc X.S.c.ldims (fun d => -X.S.c.ibn d) d g n := by
    intro d f g
    refine foldAt_congr d _ (In X) _ (fun i hi => ?_) f g
    rw [Reflecting.mem_boxLoop] at hi
    have hd := hi d
    rw [Function.update_self, Function.update_self] at hd
    beta_reduce at hd
    have := hb d
    refine upd d _ i (fun e he => ?_) (by omega) (by omega)
    have := hi e
    rw [Function.update_of_ne he, Function.update_of_ne he] at this
    beta_reduce at this
    omega
  have lonc : ∀ (d : Fin 3) (f g : I3 → ℝ), (∀ n, In X n → f n = g n) → ∀ n, In X n →
      Reflecting.lo_nc X.S.c.ldims (fun d => -X.S.c.ibn d) d f n = Reflecting.lo_nc X.S.c.ldims (fun d => -X.S.c.ibn d) d g n := by
    intro d f g
    refine foldAt_congr d _ (In X) _ (fun i hi => ?_) f g
    rw [Reflecting.mem_boxLoop] at hi
    have hd := hi d
    rw [Function.update_self, Function.update_self] at hd
    beta_reduce at hd
    have := hb d
    have := un' d
    refine upd d _ i (fun e he => ?_) (by omega) (by omega)
    have := hi e
    rw [Function.update_of_ne he, Function.update_of_ne he] at this
    beta_reduce at this
    have := un e
    omega
  have hinc : ∀ (d : Fin 3) (f g : I3 → ℝ), (∀ n, In X n → f n = g n) → ∀ n, In X n →
      Reflecting.hi_nc X.S.c.ldims (fun d => -X.S.c.ibn d) d f n = Reflecting.hi_nc X.S.c.ldims (fun d => -X.S.c.ibn d) d g n := by
    intro d f g
    refine foldAt_congr d _ (In X) _ (fun i hi => ?_) f g
    rw [Reflecting.mem_boxLoop] at hi
    have hd := hi d
    rw [Function.update_self, Function.update_self] at hd
    beta_reduce at hd
    have := hb d
    have := un' d
    refine upd d _ i (fun e he => ?_) (by omega) (by omega)
    have := hi e
    rw [Function.update_of_ne he, Function.update_of_ne he] at this
    beta_reduce at this
    have := un e
    omega
  have loop : ∀ (b : Fin 3 → Bool) (u : Fin 3 → (I3 → ℝ) → I3 → ℝ),
      (∀ (d : Fin 3) (f g : I3 → ℝ), (∀ n, In X n → f n = g n) → ∀ n, In X n → u d f n = u d g n) →
      ∀ (l : List (Fin 3)) (f g : I3 → ℝ), (∀ n, In X n → f n = g n) → ∀ n, In X n →
        l.foldl (fun f d => if b d then u d f else f) f n = l.foldl (fun f d => if b d then u d f else f) g n := by
    intro b u hu l
    induction l with
    | nil => intro f g hfg; exact hfg
    | cons d l ih =>
      intro f g hfg
      rw [List.foldl_cons, List.foldl_cons]
      refine ih _ _ fun n hn => ?_
      cases b d
      · exact hfg n hn
      · exact hu d f g hfg n hn
  unfold foldWalls
  dsimp only [grid]
  split_ifs
  · unfold Reflecting.addGhostsCC
    exact loop _ _ hicc _ _ _ (loop _ _ locc _ _ _ h) n hn
  · unfold Reflecting.addGhostsNC
    exact loop _ _ hinc _ _ _ (loop _ _ lonc _ _ _ h) n hn

theorem isCC_eq (k : Kern) (dim : Dim) : (code k dim).isCC = k.isCC := by cases k <;> cases dim <;> rfl

theorem walls_ok (hF : Fits X C I) {r : ℕ} {S : RankState ℝ} {M : List ℝ} (hM : Stores (I.lay X r) S M) :
    Stores (I.lay X r) (fun p => foldWalls (grid I X) (code I.k I.dim) r p (S p)) (walls I X r M) := by
  have hw : walls I X r M = Props.gpuMem (I.lay X r) fun p => foldWalls (grid I X) (code I.k I.dim) r p (view (I.lay X r) M p) := by
    unfold walls Props.gpuMem
    refine List.ext_getElem? fun i => ?_
    rw [List.getElem?_mapIdx, List.getElem?_map]
    by_cases hi : i < (I.lay X r).size
    · rw [List.getElem?_range hi, List.getElem?_eq_getElem (by rw [hM.1]; exact hi)]
      simp only [Option.map_some]
      congr 1
      unfold foldWalls
      rw [isCC_eq]
      rfl
    · rw [List.getElem?_eq_none (by rw [hM.1]; unfold Layout.size at hi; omega), List.getElem?_eq_none (by rw [List.length_range]; omega)]
      rfl
  rw [hw]
  obtain ⟨h1, h2⟩ := Props.gpuMem_stores (I.lay X r) fun p => foldWalls (grid I X) (code I.k I.dim) r p (view (I.lay X r) M p)
  refine ⟨h1, fun p hp m hm n hn => ?_⟩
  rw [h2 p hp m hm n hn]
  congr 1
  refine wall_congr hF r p m (fun n hn => ?_) fun d => ?_
  · unfold view
    refine (if_pos hn).trans ?_
    rw [valAt_stores hM (c := (m, n)) ⟨hn, hm, hp⟩, Option.getD_some]
  · have := hn d
    have e1 : (I.lay X r).ldims d = X.S.c.ldims d := rfl
    have e2 : (I.lay X r).ibn d = X.S.c.ibn d := rfl
    rw [e1, e2] at this
    have e3 := hF.grid.pos d
    have e3 : 0 < X.S.c.ldims d := e3
    have e4 := (hF.grid.ok.ibn d).1
    have e4 : 0 ≤ X.S.c.ibn d := e4
    show _ ≤ (n d : ℤ) - X.S.c.ibn d ∧ (n d : ℤ) - X.S.c.ibn d < _
    omega

/-! ## ghost exchange -/

theorem bnd_ok (hC : Distinct C) {k : Call} (hk : C k) (hkc : k.c = X.S.c) (hka : k.add = true) {γ : CudaPic.State}
    {prts : ℕ → ℕ → List Push.Prt} {σ : Glob ℝ} (h : HasAll X C γ prts) (hM : ∀ r < X.size, Stores (k.layout r) (σ r) (γ r).mem) :
    ∃ σ', addAll X.S.c k.mb k.me σ = some σ' ∧ Does (BndR X k) γ fun γ' => HasAll X C γ' prts ∧
      ∀ r < X.size, Stores (k.layout r) (σ' r) (γ' r).mem := by
  have hok := hC.ok k hk
  obtain ⟨σ', h1, h2⟩ : ∃ σ', addAll X.S.c k.mb k.me σ = some σ' ∧ ∀ r, Spec.CudaBnd.cpu k σ r = some (σ' r) := by
    refine ⟨_, ?_, cpu_eq hok σ⟩
    have := collective_some (n := k.c.D.counts.length) (fun r => cpu_eq hok σ r) σ
    unfold Spec.CudaBnd.cpu at this
    rw [hka] at this
    rw [← hkc]
    exact this
  refine ⟨σ', h1, ?_⟩
  have hsz : k.c.D.counts.length = X.size := by rw [hkc]; rfl
  have hM : ∀ r < k.c.D.counts.length, Stores (k.layout r) (σ r) ((fun r => (γ r).mem) r) := fun r hr => hM r (by rwa [← hsz])
  have hc : ∀ r < X.size, ∃ h', getMaps k r (γ r).cache = some (fresh k r, h') ∧ HasCache C r h' := fun r hr =>
    cache_call hC (h r hr).2 hk
  have hR : Right ℝ k fun r => (γ r).cache := right_of_fresh hok fun r hr => by
    obtain ⟨h', e, -⟩ := hc r (by rwa [← hsz])
    exact ⟨h', e⟩
  have ho : ∀ (ms : ℕ → Maps) (hs : ℕ → Cache), (∀ r < X.size, getMaps k r (γ r).cache = some (ms r, hs r)) →
      ∀ r < X.size, (∃ M, Outcome (updOf k) (writes ms (fun r => (γ r).mem) r) (γ r).mem (some M)) ∧
        ∀ o, Outcome (updOf k) (writes ms (fun r => (γ r).mem) r) (γ r).mem o → ∃ M', o = some M' ∧ Stores (k.layout r) (σ' r) M' := by
    intro ms hs hms r hr
    have hr' : r < k.c.D.counts.length := by rwa [hsz]
    obtain ⟨ms', g1, -, S', g3, g4⟩ := hR σ (fun r => (γ r).mem) hM r hr'
    have hmm : ∀ r < k.c.D.counts.length, ms r = fresh k r := fun r hr => by
      obtain ⟨h', e, -⟩ := hc r (by rwa [← hsz])
      have := hms r (by rwa [← hsz])
      rw [e, Option.some.injEq, Prod.mk.injEq] at this
      exact this.1.symm
    have hmm' : ∀ r < k.c.D.counts.length, ms' r = fresh k r := fun r hr => by
      obtain ⟨h', e, -⟩ := hc r (by rwa [← hsz])
      obtain ⟨h'', e'⟩ := g1 r hr
      rw [e, Option.some.injEq, Prod.mk.injEq] at e'
      exact e'.1.symm
    have hw : writes ms (fun r => (γ r).mem) r = writes ms' (fun r => (γ r).mem) r :=
      (writes_eq hok hM hmm hr').trans (writes_eq hok hM hmm' hr').symm
    rw [h2 r, Option.some.injEq] at g3
    subst g3
    rw [hw]
    have key : ∀ o, Outcome (updOf k) (writes ms' (fun r => (γ r).mem) r) (γ r).mem o → ∃ M', o = some M' ∧ Stores (k.layout r) (σ' r) M' :=
      fun o ho => g4 o ho
    refine ⟨?_, key⟩
    have hex : ∃ o, Outcome (updOf k) (writes ms' (fun r => (γ r).mem) r) (γ r).mem o := by
      rw [writes_eq hok hM hmm' hr']
      exact ⟨_, _, _, List.Perm.refl _, List.Perm.refl _, rfl⟩
    obtain ⟨o, ho⟩ := hex
    obtain ⟨M', rfl, -⟩ := key o ho
    exact ⟨M', ho⟩
  constructor
  · have hc' : ∀ r, ∃ h', r < X.size → getMaps k r (γ r).cache = some (fresh k r, h') := fun r => by
      by_cases hr : r < X.size
      · obtain ⟨h', e, -⟩ := hc r hr
        exact ⟨h', fun _ => e⟩
      · exact ⟨(γ r).cache, fun h => absurd h hr⟩
    choose hs hhs using hc'
    have hM' : ∀ r, ∃ M, r < X.size → Outcome (updOf k) (writes (fresh k) (fun r => (γ r).mem) r) (γ r).mem (some M) := fun r => by
      by_cases hr : r < X.size
      · obtain ⟨⟨M, e⟩, -⟩ := ho (fresh k) hs hhs r hr
        exact ⟨M, fun _ => e⟩
      · exact ⟨[], fun h => absurd h hr⟩
    choose M hM' using hM'
    exact ⟨_, .run γ (fun r => if r < X.size then ⟨(γ r).prts, M r, hs r⟩ else γ r) (fresh k) hs hhs M hM'
      (fun r hr => if_pos hr) fun r hr => if_neg (not_lt.2 hr)⟩
  · intro o hr
    cases hr with
    | maps r hr hn =>
      obtain ⟨h', e, -⟩ := hc r hr
      rw [hn] at e
      exact absurd e.symm (Option.some_ne_none _)
    | fail ms hs hms r hr hn =>
      obtain ⟨_, e, -⟩ := (ho ms hs hms r hr).2 _ hn
      exact absurd e.symm (Option.some_ne_none _)
    | run γ' ms hs hms M hM' hγ hγ' =>
      refine ⟨γ', rfl, fun r hr => ?_, fun r hr => ?_⟩
      · rw [hγ r hr]
        refine ⟨(h r hr).1, ?_⟩
        obtain ⟨h', e, hh⟩ := hc r hr
        have := hms r hr
        rw [e, Option.some.injEq, Prod.mk.injEq] at this
        dsimp only
        rw [← this.2]
        exact hh
      · rw [hγ r hr]
        obtain ⟨M', e, hst⟩ := (ho ms hs hms r hr).2 _ (hM' r hr)
        rw [Option.some.injEq] at e
        subst e
        exact hst

/-! ## the item -/

theorem zeros_stores (L : Layout) : Stores L (fun _ _ => 0) (List.replicate L.size (0 : ℝ)) := by
  have h := Props.gpuMem_stores L fun _ _ => (0 : ℝ)
  have e : Props.gpuMem L (fun _ _ => (0 : ℝ)) = List.replicate L.size 0 := by
    unfold Props.gpuMem
    rw [List.map_const', List.length_range]
  rwa [e] at h

theorem nr (D : Decomp) (r : ℕ) : D.nr_patches r = D.counts.getD r 0 := by
  unfold Decomp.nr_patches
  rw [off_succ]; omega

theorem has_p {D : Decomp} {r p : ℕ} (h : p < D.nr_patches r) : p < D.counts.getD r 0 := by rwa [← nr]

theorem has_p' {D : Decomp} {r p : ℕ} (h : p < D.counts.getD r 0) : p < D.nr_patches r := by rwa [nr]

theorem item_ok (hF : Fits X C I) {γ : CudaPic.State} {prts : ℕ → ℕ → List Push.Prt} (h : HasAll X C γ prts)
    (hp : (grid I X).Holds prts) (hyz : I.dim = .yz → ∀ r < X.size, (X.env r).g.bMx 1 = (X.env r).g.bMx 2) :
    ∃ τ, Spec.CudaMom.cpu I X prts = some τ ∧ Spec.CudaMom.Gives X C I γ prts τ := by
  have hp' : ∀ r < X.size, ∀ p < X.S.c.D.nr_patches r, ∀ q ∈ prts r p, q.kind < I.kinds.length ∧ X.S.P.q q.kind ≠ 0 ∧
      ∀ d, 0 ≤ q.x d ∧ q.x d < X.S.c.ldims d * X.S.P.dx d := fun r hr p hh q hq => hp r p ⟨hr, has_p hh⟩ q hq
  have hd1 : Does (Each X fun r s o => o = some { s with mem := List.replicate (I.lay X r).size 0 }) γ fun γ' =>
      ∀ r < X.size, HasPrts X r (γ' r).prts (prts r) ∧ HasCache C r (γ' r).cache ∧ Stores (I.lay X r) (fun _ _ => 0) (γ' r).mem := by
    refine does_each (Q := fun r s => HasPrts X r s.prts (prts r) ∧ HasCache C r s.cache ∧ Stores (I.lay X r) (fun _ _ => 0) s.mem)
      fun r hr => ⟨⟨_, rfl⟩, ?_⟩
    rintro o rfl
    exact ⟨_, rfl, (h r hr).1, (h r hr).2, zeros_stores _⟩
  have hd2 : ∀ γ' : CudaPic.State, (∀ r < X.size, HasPrts X r (γ' r).prts (prts r) ∧ HasCache C r (γ' r).cache ∧
      Stores (I.lay X r) (fun _ _ => 0) (γ' r).mem) → Does (Each X (KernelR I X)) γ' fun γ' =>
      ∀ r < X.size, HasPrts X r (γ' r).prts (prts r) ∧ HasCache C r (γ' r).cache ∧ Stores (I.lay X r) (dep I X (prts r)) (γ' r).mem := by
    intro γ' h'
    refine does_each (Q := fun r s => HasPrts X r s.prts (prts r) ∧ HasCache C r s.cache ∧ Stores (I.lay X r) (dep I X (prts r)) s.mem)
      fun r hr => ?_
    obtain ⟨a1, a2, a3⟩ := h' r hr
    obtain ⟨b1, b2⟩ := kernelR_ok hF hr (fun hd => hyz hd r hr) a1 (hp' r hr) a3
    refine ⟨b1, fun o ho => ?_⟩
    obtain ⟨s', e, e1, e2, e3⟩ := b2 o ho
    exact ⟨s', e, e2, by rw [e1]; exact a2, e3⟩
  have hd3 : ∀ γ' : CudaPic.State, (∀ r < X.size, HasPrts X r (γ' r).prts (prts r) ∧ HasCache C r (γ' r).cache ∧
      Stores (I.lay X r) (dep I X (prts r)) (γ' r).mem) →
      Does (Each X fun r s o => o = some { s with mem := walls I X r s.mem }) γ' fun γ' =>
      ∀ r < X.size, HasPrts X r (γ' r).prts (prts r) ∧ HasCache C r (γ' r).cache ∧
        Stores (I.lay X r) (fun p => foldWalls (grid I X) (code I.k I.dim) r p (dep I X (prts r) p)) (γ' r).mem := by
    intro γ' h'
    refine does_each (Q := fun r s => HasPrts X r s.prts (prts r) ∧ HasCache C r s.cache ∧
      Stores (I.lay X r) (fun p => foldWalls (grid I X) (code I.k I.dim) r p (dep I X (prts r) p)) s.mem)
      fun r hr => ⟨⟨_, rfl⟩, ?_⟩
    rintro o rfl
    obtain ⟨a1, a2, a3⟩ := h' r hr
    exact ⟨_, rfl, a1, a2, walls_ok hF a3⟩
  have hsome : ∀ r p, (grid I X).c.D.Has r p → (deposited (grid I X) (moment I.k) (code I.k I.dim) (prts r p)).isSome := by
    intro r p hh
    rw [deposited_eq hF (hp' r hh.1 p (has_p' hh.2))]
    rfl
  have hcol := collect (M := moment I.k) (C := code I.k I.dim) (prts := prts) (G := grid I X) hsome
  have hnc : (I.call X).me = Moments.n_comps (grid I X) (moment I.k) := n_comps I X
  set σ : Glob ℝ := fun r p => foldWalls (grid I X) (code I.k I.dim) r p (dep I X (prts r) p) with hσ
  obtain ⟨τ, hτ⟩ := BndFields.addAll_total (c := X.S.c) hF.grid.ok 0 (Moments.n_comps (grid I X) (moment I.k)) (by omega) σ
  refine ⟨τ, hcol.trans hτ, ?_⟩
  have hall : Does (Seq (phases I X)) γ fun γ' => HasAll X C γ' prts ∧ ∀ r < X.size, Stores (I.lay X r) (τ r) (γ' r).mem := by
    unfold phases
    refine does_cons hd1 fun γ' h' => ?_
    refine does_cons (hd2 γ' h') fun γ' h' => ?_
    refine does_cons (hd3 γ' h') fun γ' h' => ?_
    have hall' : HasAll X C γ' prts := fun r hr => ⟨(h' r hr).1, (h' r hr).2.1⟩
    obtain ⟨τ', h1, h2⟩ := bnd_ok hF.calls hF.own rfl rfl hall' (fun r hr => (h' r hr).2.2)
    have h1 : addAll X.S.c 0 (I.call X).me σ = some τ' := h1
    rw [hnc, hτ, Option.some.injEq] at h1
    subst h1
    exact does_cons h2 fun γ' h' => does_nil h'
  obtain ⟨⟨o, ho⟩, hall⟩ := hall
  refine ⟨⟨_, _, ho, rfl⟩, ?_⟩
  rintro _ ⟨o', ho', rfl⟩
  obtain ⟨γ', rfl, h1, h2⟩ := hall o' ho'
  exact ⟨_, _, rfl, fun r hr => h1 r hr, fun r hr => ⟨rfl, h2 r hr⟩⟩

end Psc.CudaMom
