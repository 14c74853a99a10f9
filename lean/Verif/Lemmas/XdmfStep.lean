import Verif.Lemmas.XdmfRank

/-! Lemmas for C79: a step on all ranks -/

namespace Psc.Xdmf

open Domain Writer

variable {K α : Type} [Field K]

theorem onRanks_spec {n : ℕ} {f : ℕ → Local K α → Option (Local K α)} {s : ℕ → Local K α} {P : ℕ → Local K α → Prop}
    (h : ∀ r < n, ∃ L, f r (s r) = some L ∧ P r L) : ∃ s', onRanks n f s = some s' ∧ ∀ r < n, P r (s' r) := by
  refine ⟨_, if_pos fun r hr => ?_, fun r hr => ?_⟩
  · obtain ⟨L, e, -⟩ := h r hr
    rw [e]; rfl
  · obtain ⟨L, e, hP⟩ := h r hr
    beta_reduce
    rw [if_pos hr, e]
    exact hP

/-! ## Patches -/

/-- a patch as the index lists it -/
def pinfo (G : Dom K) (r gp : ℕ) : PatchInfo K :=
  let rp := (gpatch_to_rank_patch G.D.counts gp).getD (0, 0)
  let off := Decomp.off G.ldims (sfc_idx_to_idx3 G.D.curve G.D.np gp)
  ⟨rp.1, rp.2, fun d => G.ldims d, fun d => G.corner d + off d * G.dxBase r d, fun d => G.dxBase r d⟩

/-- number of patches -/
def Dom.n (G : Dom K) : ℕ := G.D.np 0 * G.D.np 1 * G.D.np 2

theorem mapM_some {β γ : Type} {f : β → Option γ} {g : β → γ} : ∀ (l : List β), (∀ x ∈ l, f x = some (g x)) → l.mapM f = some (l.map g)
  | [], _ => rfl
  | x :: l, h => by
    rw [List.mapM_cons, h x List.mem_cons_self, mapM_some l fun y hy => h y (List.mem_cons_of_mem _ hy)]
    rfl

theorem spatialCreate_eq {G : Dom K} (hv : G.D.Valid) (sw r : ℕ) :
    spatialCreate G sw r = some ⟨G.name, sw, (List.range G.n).map (pinfo G r), []⟩ := by
  unfold spatialCreate
  have : (List.range (G.D.np 0 * G.D.np 1 * G.D.np 2)).mapM (patchInfo G r) = some ((List.range G.n).map (pinfo G r)) := by
    refine mapM_some _ fun gp hgp => ?_
    have h := List.mem_range.1 hgp
    rw [← hv.sum] at h
    obtain ⟨a, b, ha, hb, rfl⟩ := exists_owner _ h
    unfold patchInfo pinfo
    rw [g2rp_of _ ha hb]
    rfl
  rw [this]
  rfl

/-! ## Steps -/

/-- what holds on a rank while fields are written -/
structure RankOk (i : StepIn K α) (O : List (Str × (ℕ → ℕ))) (done : List (FldIn α × Str)) (r : ℕ) (L : Local K α) : Prop where
  objs : L.objs = O.map fun o => (o.1, o.2 r)
  live : L.live.Perm ((O.map fun o => o.2 r) ++ i.live r)
  groups : ∀ g ∈ L.file.groups, ∃ o ∈ O, g.head? = some o.1
  keys : (L.file.dsets.map Prod.fst).Nodup
  heads : ∀ x ∈ L.file.dsets, ∃ d ∈ done, x.1.head? = some d.2
  data : ∀ d ∈ done, ∀ c ∈ d.1.comps.zipIdx, ∀ p < i.G.D.nr_patches r, ∃ ds,
    ([d.2, c.1, pname p, ['3', 'd']], ds) ∈ L.file.dsets ∧ IsData i.G d.1 r p c.2 ds
  spatials : L.spatials = if done = [] then [] else
    [⟨i.G.name, 0, (List.range i.G.n).map (pinfo i.G r), done.flatMap fun d => d.1.comps.map fun c => (c, d.2)⟩]

/-- what holds on all ranks while fields are written -/
structure Mid (S : Setup) (i : StepIn K α) (O : List (Str × (ℕ → ℕ))) (done : List (FldIn α × Str)) (s : ℕ → Local K α) : Prop where
  rank : ∀ r < S.size, RankOk i O done r (s r)
  uid : ∀ o ∈ O, ∃ name, o.1 = thePath name (o.2 0)
  dom : ∀ o ∈ O, o.1 = thePath i.G.name (i.G.addr 0) → ∀ r, o.2 r = i.G.addr r
  paths : ∀ d ∈ done, ∃ o ∈ O, o.1 = d.2
  nodup : (done.map Prod.snd).Nodup
  count : O.length ≤ 2 * (done.flatMap fun d => d.1.comps).length + 1

/-- the allocator on rank 0 -/
theorem Mid.alloc [LinearOrder K] {S : Setup} {i : StepIn K α} {O : List (Str × (ℕ → ℕ))} {done : List (FldIn α × Str)}
    {s : ℕ → Local K α} (h : Mid S i O done s) (hS : S.Ok) (hi : i.Ok S) (hc : (done.flatMap fun d => d.1.comps).length ≤ 100) :
    newAddr i.alloc s 0 ∉ (s 0).live ∧ newAddr i.alloc s 0 ≠ 0 ∧ newAddr i.alloc s 0 < 2 ^ 48 := by
  refine hi.alloc 0 (s 0).nalloc (s 0).live ?_
  have h1 := (h.rank 0 hS.size.1).live.length_eq
  have h2 := hi.mem 0 hS.size.1
  have h3 := h.count
  rw [List.length_append, List.length_map] at h1
  omega

/-- a new object has a new path -/
theorem fresh [LinearOrder K] {S : Setup} {i : StepIn K α} {O : List (Str × (ℕ → ℕ))} {done : List (FldIn α × Str)}
    {s : ℕ → Local K α} (hS : S.Ok) (hi : i.Ok S) (h : Mid S i O done s)
    (hc : (done.flatMap fun d => d.1.comps).length ≤ 100) (name : Str) :
    (∀ o ∈ O, o.1 ≠ thePath name (newAddr i.alloc s 0)) ∧ thePath name (newAddr i.alloc s 0) ≠ thePath i.G.name (i.G.addr 0) := by
  have hR := h.rank 0 hS.size.1
  have hf := (h.alloc hS hi hc).1
  constructor
  · intro o ho e
    obtain ⟨nm, hn⟩ := h.uid o ho
    rw [hn] at e
    refine hf ?_
    rw [hR.live.mem_iff, List.mem_append]
    exact Or.inl (List.mem_map.2 ⟨o, ho, thePath_inj e⟩)
  · intro e
    refine hf ?_
    rw [hR.live.mem_iff, List.mem_append]
    right
    have := thePath_inj e
    rw [this]
    exact hi.dom 0 hS.size.1

theorem mid_begin [LinearOrder K] {S : Setup} {i : StepIn K α} (hS : S.Ok) (hi : i.Ok S) :
    ∃ s O, beginStep S i.alloc i.live = some s ∧ Mid (K := K) S i O [] s := by
  set s0 : ℕ → Local K α := fun r => { live := i.live r, nalloc := 0 } with hs0
  have hM0 : Mid S i [] [] s0 := {
    rank := fun r _ => ⟨rfl, List.Perm.refl _, by simp [hs0], by simp [hs0], by simp [hs0], by simp, rfl⟩
    uid := by simp
    dom := by simp
    paths := by simp
    nodup := by simp
    count := by simp }
  obtain ⟨-, hnd⟩ := fresh hS hi hM0 (by simp) "psc".toList
  have hal := hM0.alloc hS hi (by simp)
  have hpath : objPath "psc".toList (newAddr i.alloc s0 0) = some (thePath "psc".toList (newAddr i.alloc s0 0)) :=
    objPath_eq hal.2.1 hal.2.2
  set path := thePath "psc".toList (newAddr i.alloc s0 0) with hp
  obtain ⟨s', e, h⟩ := onRanks_spec (n := S.size) (s := s0)
    (f := fun r L => ((L.created (newAddr i.alloc s0 r)).writeObj path (newAddr i.alloc s0 r)).bind fun L =>
      some (L.put (newAddr i.alloc s0 r)))
    (P := fun r L => RankOk i [(path, newAddr i.alloc s0)] [] r L) (by
      intro r hr
      obtain ⟨h', e1, e2, e3, -⟩ := writeObj_new (L := (s0 r).created (newAddr i.alloc s0 r)) (path := path)
        (a := newAddr i.alloc s0 r) (by simp [Local.created, hs0])
      refine ⟨_, by rw [e1]; rfl, ?_⟩
      refine ⟨rfl, ?_, ?_, ?_, ?_, by simp, rfl⟩
      · show ((newAddr i.alloc s0 r :: newAddr i.alloc s0 r :: i.live r).erase _).Perm _
        simp
      · intro g hg
        rcases e3 g hg with hg | rfl
        · exact absurd hg (by simp [Local.created, hs0])
        · exact ⟨_, List.mem_singleton.2 rfl, rfl⟩
      · show (h'.dsets.map Prod.fst).Nodup
        rw [e2]
        simp [Local.created, hs0]
      · show ∀ x ∈ h'.dsets, _
        rw [e2]
        simp [Local.created, hs0])
  refine ⟨s', [(path, newAddr i.alloc s0)], ?_, h, ?_, ?_, by simp, by simp, by simp⟩
  · unfold beginStep
    simp only [Option.bind_eq_bind]
    rw [hpath]
    exact e
  · intro o ho
    rw [List.mem_singleton.1 ho]
    exact ⟨_, rfl⟩
  · intro o ho h'
    rw [List.mem_singleton.1 ho] at h'
    exact absurd h' hnd

theorem mid_write [LinearOrder K] {S : Setup} {i : StepIn K α} (hS : S.Ok) (hi : i.Ok S) {O : List (Str × (ℕ → ℕ))}
    {done : List (FldIn α × Str)} {s : ℕ → Local K α} (h : Mid S i O done s) {f : FldIn α} (hf : f ∈ i.flds)
    (hl : (done.flatMap fun d => d.1.comps).length + f.comps.length ≤ 100) :
    ∃ s' O' path, writeFld S i.alloc i.G f s = some s' ∧ Mid S i O' (done ++ [(f, path)]) s' := by
  obtain ⟨hfr, hnd⟩ := fresh hS hi h (by omega) f.name
  have hal := h.alloc hS hi (by omega)
  have hpath : objPath f.name (newAddr i.alloc s 0) = some (thePath f.name (newAddr i.alloc s 0)) := objPath_eq hal.2.1 hal.2.2
  have hdpath : objPath i.G.name (i.G.addr 0) = some (thePath i.G.name (i.G.addr 0)) := objPath_eq hi.addr.1 hi.addr.2
  set path := thePath f.name (newAddr i.alloc s 0) with hp
  set dpath := thePath i.G.name (i.G.addr 0) with hdp
  set O' := O ++ (path, newAddr i.alloc s) :: (if ∃ o ∈ O, o.1 = dpath then [] else [(dpath, i.G.addr)]) with hO'
  have hfl : (done.flatMap fun d => d.1.comps).length = (done.flatMap fun d => d.1.comps.map fun c => (c, d.2)).length := by
    simp [List.length_flatMap]
  obtain ⟨s', e, hs'⟩ := onRanks_spec (n := S.size) (s := s)
    (f := fun r L => L.writeFld S.sw i.G f path dpath r (newAddr i.alloc s r))
    (P := fun r L => RankOk i O' (done ++ [(f, path)]) r L) (by
      intro r hr
      have hR := h.rank r hr
      have hnp := hi.patches r hr
      have hlen := hi.len f hf r hr
      rw [← Balance.nr_patches_eq] at hnp hlen
      have hdm : (∃ o ∈ (s r).objs, o.1 = dpath) ↔ ∃ o ∈ O, o.1 = dpath := by
        rw [hR.objs]
        simp
      have hx : (s r).index i.G r 0 = some ⟨i.G.name, 0, (List.range i.G.n).map (pinfo i.G r),
          done.flatMap fun d => d.1.comps.map fun c => (c, d.2)⟩ := by
        unfold Local.index
        rw [hR.spatials]
        by_cases hd : done = []
        · subst hd
          simp only [if_true, List.find?_nil, List.flatMap_nil]
          exact spatialCreate_eq hi.valid 0 r
        · rw [if_neg hd]
          simp
      obtain ⟨L', new, e1, e2, e3, e4, e5, e6, e7⟩ := writeFld_rank (a := newAddr i.alloc s r) (L := s r) (path := path) (dpath := dpath)
        (r := r) hi.ldims hnp.1 hnp.2.le (hi.comps f hf).1 (hi.comps f hf).2 hlen (by
          rw [hR.objs]
          intro o ho
          obtain ⟨o', ho', rfl⟩ := List.mem_map.1 ho
          exact hfr o' ho') hnd (by
          rw [hR.objs]
          intro o ho hd
          obtain ⟨o', ho', rfl⟩ := List.mem_map.1 ho
          exact h.dom o' ho' hd r) (by
          intro g hg hh
          obtain ⟨o, ho, e⟩ := hR.groups g hg
          rw [hh] at e
          exact hfr o ho (Option.some.inj e).symm) hx (by rw [← hfl]; exact hl)
      rw [hS.sw]
      refine ⟨L', e1, ?_, ?_, ?_, ?_, ?_, ?_, ?_⟩
      · rw [e2, hO', hR.objs, List.map_append, List.map_cons]
        rw [← hR.objs]
        simp only [hdm]
        split_ifs <;> rfl
      · refine e3.trans ?_
        rw [hO']
        simp only [hdm, List.map_append, List.map_cons]
        have : (List.map (fun o : Str × (ℕ → ℕ) => o.2 r) (if ∃ o ∈ O, o.1 = dpath then [] else [(dpath, i.G.addr)])) =
            if ∃ o ∈ O, o.1 = dpath then [] else [i.G.addr r] := by split_ifs <;> rfl
        rw [this]
        refine (hR.live.append_left _).trans ?_
        rw [← List.append_assoc]
        exact List.perm_append_comm.append_right _
      · intro g hg
        rcases e4 g hg with hg | hg | ⟨rfl, hdn⟩
        · obtain ⟨o, ho, e⟩ := hR.groups g hg
          exact ⟨o, List.mem_append_left _ ho, e⟩
        · exact ⟨(path, newAddr i.alloc s), List.mem_append_right _ List.mem_cons_self, hg⟩
        · refine ⟨(dpath, i.G.addr), List.mem_append_right _ (List.mem_cons_of_mem _ ?_), rfl⟩
          rw [hdm] at hdn
          rw [if_neg hdn]
          exact List.mem_singleton.2 rfl
      · rw [e5, List.map_append, List.nodup_append]
        refine ⟨hR.keys, e6.nodup, ?_⟩
        rintro x hx y hy rfl
        obtain ⟨a, ha, rfl⟩ := List.mem_map.1 hx
        obtain ⟨b, hb, hab⟩ := List.mem_map.1 hy
        obtain ⟨d, hd, hd'⟩ := hR.heads a ha
        have := e6.head b hb
        rw [hab, hd'] at this
        obtain ⟨o, ho, ho'⟩ := h.paths d hd
        exact hfr o ho (ho'.trans (Option.some.inj this))
      · intro x hx
        rw [e5] at hx
        rcases List.mem_append.1 hx with hx | hx
        · obtain ⟨d, hd, hd'⟩ := hR.heads x hx
          exact ⟨d, List.mem_append_left _ hd, hd'⟩
        · exact ⟨(f, path), List.mem_append_right _ (List.mem_singleton.2 rfl), e6.head x hx⟩
      · intro d hd c hc p hp
        rw [e5]
        rcases List.mem_append.1 hd with hd | hd
        · obtain ⟨ds, h1, h2⟩ := hR.data d hd c hc p hp
          exact ⟨ds, List.mem_append_left _ h1, h2⟩
        · rw [List.mem_singleton.1 hd] at hc ⊢
          obtain ⟨ds, h1, h2⟩ := e6.data c hc p hp
          exact ⟨ds, List.mem_append_right _ h1, h2⟩
      · rw [e7, if_neg (by simp), hR.spatials]
        split_ifs with hd
        · subst hd; simp
        · simp)
  refine ⟨s', O', path, ?_, hs', ?_, ?_, ?_, ?_, ?_⟩
  · unfold writeFld
    simp only [Option.bind_eq_bind]
    rw [hpath, hdpath]
    exact e
  · intro o ho
    rcases List.mem_append.1 ho with ho | ho
    · exact h.uid o ho
    · rcases List.mem_cons.1 ho with rfl | ho
      · exact ⟨_, rfl⟩
      · split_ifs at ho
        · simp at ho
        · rw [List.mem_singleton.1 ho]; exact ⟨_, rfl⟩
  · intro o ho hd
    rcases List.mem_append.1 ho with ho | ho
    · exact h.dom o ho hd
    · rcases List.mem_cons.1 ho with rfl | ho
      · exact absurd hd hnd
      · split_ifs at ho
        · simp at ho
        · rw [List.mem_singleton.1 ho]; exact fun _ => rfl
  · intro d hd
    rcases List.mem_append.1 hd with hd | hd
    · obtain ⟨o, ho, e⟩ := h.paths d hd
      exact ⟨o, List.mem_append_left _ ho, e⟩
    · rw [List.mem_singleton.1 hd]
      exact ⟨_, List.mem_append_right _ List.mem_cons_self, rfl⟩
  · rw [List.map_append, List.nodup_append]
    refine ⟨h.nodup, by simp, ?_⟩
    rintro x hx y hy rfl
    obtain ⟨d, hd, rfl⟩ := List.mem_map.1 hx
    obtain ⟨o, ho, e⟩ := h.paths d hd
    simp only [List.map_cons, List.map_nil, List.mem_singleton] at hy
    exact hfr o ho (e.trans hy)
  · have h1 := h.count
    have h2 : 0 < f.comps.length := List.length_pos_iff.2 (hi.comps f hf).1
    have h3 : (if ∃ o ∈ O, o.1 = dpath then [] else [(dpath, i.G.addr)]).length ≤ 1 := by split_ifs <;> simp
    rw [hO']
    simp only [List.flatMap_append, List.flatMap_cons, List.flatMap_nil, List.append_nil, List.length_append, List.length_cons]
    omega

/-- all fields -/
theorem mid_flds [LinearOrder K] {S : Setup} {i : StepIn K α} (hS : S.Ok) (hi : i.Ok S) : ∀ (l : List (FldIn α))
    {O : List (Str × (ℕ → ℕ))} {done : List (FldIn α × Str)} {s : ℕ → Local K α}, Mid S i O done s → (∀ f ∈ l, f ∈ i.flds) →
    (done.flatMap fun d => d.1.comps).length + (l.flatMap fun f => f.comps).length ≤ 100 →
    ∃ s' O' paths, l.foldlM (fun s f => writeFld S i.alloc i.G f s) s = some s' ∧ Mid S i O' (done ++ paths) s' ∧
      paths.map Prod.fst = l := by
  intro l
  induction l with
  | nil => intro O done s h _ _; exact ⟨s, O, [], rfl, by simpa using h, rfl⟩
  | cons f l ih =>
    intro O done s h hl hc
    rw [List.flatMap_cons, List.length_append] at hc
    obtain ⟨s1, O1, path, e1, h1⟩ := mid_write hS hi h (hl f List.mem_cons_self) (by omega)
    obtain ⟨s2, O2, paths, e2, h2, h3⟩ := ih h1 (fun g hg => hl g (List.mem_cons_of_mem _ hg)) (by
      simp only [List.flatMap_append, List.flatMap_cons, List.flatMap_nil, List.append_nil, List.length_append]
      omega)
    refine ⟨s2, O2, (f, path) :: paths, ?_, by simpa using h2, by rw [List.map_cons, h3]⟩
    rw [List.foldlM_cons, e1]
    exact e2

theorem erase_all {l a b : List ℕ} (h : l.Perm (a ++ b)) : (a.foldl (fun l x => l.erase x) l).Perm b := by
  induction a generalizing l with
  | nil => exact h
  | cons x a ih =>
    rw [List.foldl_cons]
    refine ih ?_
    have := h.erase x
    simpa using this

/-- references are given up -/
theorem released {i : StepIn K α} {O : List (Str × (ℕ → ℕ))} {done : List (FldIn α × Str)} {r : ℕ} {L : Local K α}
    (h : RankOk i O done r L) : L.release.live.Perm (i.live r) := by
  unfold Local.release
  rw [h.objs, List.foldl_map]
  have := erase_all h.live
  rw [List.foldl_map] at this
  exact this

end Psc.Xdmf
