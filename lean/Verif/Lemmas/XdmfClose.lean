import Verif.Lemmas.XdmfStep

/-! Lemmas for C79: the files at the end of a step, and of a run -/

namespace Psc.Xdmf

open Domain Writer

variable {K α : Type} [Field K]

/-- a grid of the index -/
def xg (base : Str) (step : ℕ) (flds : List (Str × Str)) (i : PatchInfo K) : XGrid K where
  dims := ![i.ldims 2 + 1, i.ldims 1 + 1, i.ldims 0 + 1]
  origin := ![i.xl 2, i.xl 1, i.xl 0]
  dxdydz := ![i.dx 2, i.dx 1, i.dx 0]
  attrs := flds.map fun f => ⟨f.1, ![i.ldims 2, i.ldims 1, i.ldims 0], h5Name base step i.rank, [f.2, f.1, pname i.patch, ['3', 'd']]⟩

theorem xgrid_eq {dir base : Str} {step : ℕ} {xs : Spatial K} {i : PatchInfo K} (hs : step < 2 ^ 31) (hr : i.rank < 2 ^ 31)
    (hsw : xs.sw = 0) : xgrid dir base step xs i = some (xg base step xs.flds i) := by
  unfold xgrid
  rw [(h5_short hs hr).2]
  simp only [Option.bind_eq_bind, Option.bind_some, hsw]
  have : (fun d => if i.ldims d > 1 then ((0 : ℕ) : ℤ) else 0) = fun _ => 0 := by funext d; split_ifs <;> rfl
  have h' : ∀ d, (if i.ldims d > 1 then ((0 : ℕ) : ℤ) else 0) = 0 := fun d => congrFun this d
  simp only [h', mul_zero, add_zero, Int.cast_zero, zero_mul, sub_zero]
  rfl

/-- the index of a step -/
def theIndex (S : Setup) (i : StepIn K α) (done : List (FldIn α × Str)) : Index K where
  time := i.time
  grids := (List.range i.G.n).map fun gp => xg S.base i.step (done.flatMap fun d => d.1.comps.map fun c => (c, d.2)) (pinfo i.G 0 gp)

/-- what rank `r` does to the files -/
def eff (S : Setup) (i : StepIn K α) (done : List (FldIn α × Str)) (s : ℕ → Local K α) (k : Disk K α) (r : ℕ) : Disk K α :=
  let k := k.write (inDir S.dir (h5Name S.base i.step r)) (.h5 (s r).file)
  if r = 0 then
    let k := k.write (inDir S.dir (indexName S.base i.step)) (.index (theIndex S i done))
    let k := { k with steps := k.steps ++ [indexName S.base i.step] }
    k.write (inDir S.dir (seriesName S.base)) (.series k.steps)
  else k

theorem closeRank_eq [LinearOrder K] {S : Setup} {i : StepIn K α} (hS : S.Ok) (hi : i.Ok S) {O : List (Str × (ℕ → ℕ))}
    {done : List (FldIn α × Str)} {s : ℕ → Local K α} (h : Mid S i O done s) (hd : done ≠ []) (k : Disk K α) {r : ℕ} (hr : r < S.size) :
    closeRank S i.step i.time s k r = some (eff S i done s k r) := by
  have hs := hi.step
  have hr' : r < 2 ^ 31 := hr.trans hS.size.2
  unfold closeRank eff
  rw [(h5_short hs hr').1]
  simp only [Option.bind_eq_bind, Option.bind_some]
  by_cases h0 : r = 0
  · subst h0
    rw [if_pos rfl, if_pos rfl, (h.rank 0 hr).spatials, if_neg hd]
    simp only [List.foldlM_cons, List.foldlM_nil, Option.bind_eq_bind]
    unfold closeSpatial
    rw [index_short hs]
    simp only [Option.bind_eq_bind, Option.bind_some]
    rw [mapM_some (g := xg S.base i.step (done.flatMap fun d => d.1.comps.map fun c => (c, d.2)))]
    · simp only [Option.bind_some, theIndex, List.map_map]
      rfl
    · intro x hx
      obtain ⟨gp, hgp, rfl⟩ := List.mem_map.1 hx
      refine xgrid_eq hs ?_ rfl
      have hg := List.mem_range.1 hgp
      unfold Dom.n at hg
      rw [← hi.valid.sum] at hg
      obtain ⟨a, b, ha, hb, rfl⟩ := exists_owner _ hg
      unfold pinfo
      rw [g2rp_of _ ha hb]
      have := hi.size
      have := hS.size.2
      show a < 2 ^ 31
      omega
  · rw [if_neg h0, if_neg h0]

theorem write_files (k : Disk K α) (n : Str) (f : File K α) (m : Str) :
    (k.write n f).files m = if m = n then some f else k.files m := by
  unfold Disk.write
  simp only [Function.update_apply]

/-- the files after the ranks in `l` have closed theirs -/
structure Closed (S : Setup) (i : StepIn K α) (done : List (FldIn α × Str)) (s : ℕ → Local K α) (l : List ℕ) (k k' : Disk K α) : Prop where
  h5 : ∀ r, k'.files (inDir S.dir (h5Name S.base i.step r)) =
    if r ∈ l then some (.h5 (s r).file) else k.files (inDir S.dir (h5Name S.base i.step r))
  index : k'.files (inDir S.dir (indexName S.base i.step)) =
    if 0 ∈ l then some (.index (theIndex S i done)) else k.files (inDir S.dir (indexName S.base i.step))
  steps : k'.steps = if 0 ∈ l then k.steps ++ [indexName S.base i.step] else k.steps
  series : k'.files (inDir S.dir (seriesName S.base)) =
    if 0 ∈ l then some (.series k'.steps) else k.files (inDir S.dir (seriesName S.base))
  other : ∀ n, (∀ r, n ≠ h5Name S.base i.step r) → n ≠ indexName S.base i.step → n ≠ seriesName S.base →
    k'.files (inDir S.dir n) = k.files (inDir S.dir n)

theorem closed_eff (S : Setup) (i : StepIn K α) (done : List (FldIn α × Str)) (s : ℕ → Local K α) : ∀ (l : List ℕ) (k : Disk K α), l.Nodup →
    Closed S i done s l k (l.foldl (eff S i done s) k) := by
  intro l
  induction l with
  | nil => intro k _; exact ⟨by simp, by simp, by simp, by simp, by simp⟩
  | cons r l ih =>
    intro k hn
    have h := ih (eff S i done s k r) (List.nodup_cons.1 hn).2
    have hr := (List.nodup_cons.1 hn).1
    have ne1 : ∀ r r', (inDir S.dir (h5Name S.base i.step r) = inDir S.dir (h5Name S.base i.step r')) ↔ r = r' :=
      fun r r' => ⟨fun e => (h5Name_inj (inDir_inj e)).2, fun e => by rw [e]⟩
    have ne2 : ∀ r, inDir S.dir (h5Name S.base i.step r) ≠ inDir S.dir (indexName S.base i.step) := fun r e => h5_ne_index (inDir_inj e)
    have ne3 : ∀ r, inDir S.dir (h5Name S.base i.step r) ≠ inDir S.dir (seriesName S.base) := fun r e => h5_ne_series (inDir_inj e)
    have ne4 : inDir S.dir (indexName S.base i.step) ≠ inDir S.dir (seriesName S.base) := fun e => index_ne_series (inDir_inj e)
    have d1 : ∀ n, (eff S i done s k r).files n = if n = inDir S.dir (h5Name S.base i.step r) then some (.h5 (s r).file) else
        if r = 0 ∧ n = inDir S.dir (indexName S.base i.step) then some (.index (theIndex S i done)) else
        if r = 0 ∧ n = inDir S.dir (seriesName S.base) then some (.series (k.steps ++ [indexName S.base i.step])) else k.files n := by
      intro n
      unfold eff
      by_cases h0 : r = 0
      · subst h0
        simp only [if_true, true_and]
        rw [write_files]
        by_cases e3 : n = inDir S.dir (seriesName S.base)
        · subst e3
          rw [if_pos rfl, if_neg (ne3 0).symm, if_neg ne4.symm, if_pos rfl]
          rfl
        · rw [if_neg e3]
          show ((k.write _ _).write _ _).files n = _
          rw [write_files, write_files, if_neg e3]
          by_cases e2 : n = inDir S.dir (indexName S.base i.step)
          · subst e2
            rw [if_pos rfl, if_neg (ne2 0).symm, if_pos rfl]
          · rw [if_neg e2, if_neg e2]
      · rw [if_neg h0, write_files]
        simp [h0]
    have d2 : (eff S i done s k r).steps = if r = 0 then k.steps ++ [indexName S.base i.step] else k.steps := by
      unfold eff
      split_ifs <;> rfl
    rw [List.foldl_cons]
    refine ⟨fun r' => ?_, ?_, ?_, ?_, fun n n1 n2 n3 => ?_⟩
    · rw [h.h5 r', d1]
      by_cases hl : r' ∈ l
      · rw [if_pos hl, if_pos (List.mem_cons_of_mem _ hl)]
      · rw [if_neg hl]
        by_cases e : r' = r
        · subst e
          rw [if_pos rfl, if_pos List.mem_cons_self]
        · rw [if_neg (by rw [ne1]; exact e), if_neg (fun h => ne2 r' h.2), if_neg (fun h => ne3 r' h.2),
            if_neg (by rw [List.mem_cons]; tauto)]
    · rw [h.index, d1, if_neg (ne2 r).symm]
      by_cases h0 : r = 0
      · subst h0
        rw [if_neg hr, if_pos ⟨rfl, rfl⟩, if_pos List.mem_cons_self]
      · have : (0 ∈ r :: l) ↔ 0 ∈ l := by rw [List.mem_cons]; exact or_iff_right (Ne.symm h0)
        simp only [h0, false_and, if_false, this]
    · rw [h.steps, d2]
      by_cases h0 : r = 0
      · subst h0
        rw [if_neg hr, if_pos rfl, if_pos List.mem_cons_self]
      · have : (0 ∈ r :: l) ↔ 0 ∈ l := by rw [List.mem_cons]; exact or_iff_right (Ne.symm h0)
        simp only [h0, if_false, this]
    · rw [h.series, d1, if_neg (ne3 r).symm]
      by_cases h0 : r = 0
      · subst h0
        rw [if_neg hr, if_neg (fun h => ne4.symm h.2), if_pos ⟨rfl, rfl⟩, if_pos List.mem_cons_self, h.steps, if_neg hr, d2, if_pos rfl]
      · have : (0 ∈ r :: l) ↔ 0 ∈ l := by rw [List.mem_cons]; exact or_iff_right (Ne.symm h0)
        simp only [h0, false_and, if_false, this]
    · rw [h.other n n1 n2 n3, d1, if_neg (fun e => n1 r (inDir_inj e)), if_neg (fun e => n2 (inDir_inj e.2)),
        if_neg (fun e => n3 (inDir_inj e.2))]

/-- the files of a step -/
def StepFiles (S : Setup) (files : Str → Option (File K α)) (i : StepIn K α) : Prop :=
  ∃ s O done, Mid S i O done s ∧ done.map Prod.fst = i.flds ∧
    (∀ r < S.size, files (inDir S.dir (h5Name S.base i.step r)) = some (.h5 (s r).file)) ∧
    files (inDir S.dir (indexName S.base i.step)) = some (.index (theIndex S i done))

theorem length_quantities (i : StepIn K α) : i.quantities.length = (i.flds.flatMap fun f => f.comps).length := by
  unfold StepIn.quantities
  simp [List.length_flatMap]

theorem writeStep_spec [LinearOrder K] {S : Setup} {i : StepIn K α} (hS : S.Ok) (hi : i.Ok S) (k : Disk K α) :
    ∃ k' live', writeStep S i k = some (k', live') ∧ (∀ r < S.size, (live' r).Perm (i.live r)) ∧ StepFiles S k'.files i ∧
      k'.steps = k.steps ++ [indexName S.base i.step] ∧ k'.files (inDir S.dir (seriesName S.base)) = some (.series k'.steps) ∧
      ∀ n, (∀ r, n ≠ h5Name S.base i.step r) → n ≠ indexName S.base i.step → n ≠ seriesName S.base →
        k'.files (inDir S.dir n) = k.files (inDir S.dir n) := by
  obtain ⟨s0, O0, e0, h0⟩ := mid_begin (K := K) hS hi
  obtain ⟨s, O, done, e1, h1, h2⟩ := mid_flds hS hi i.flds h0 (fun _ h => h) (by
    have := hi.limit
    rw [length_quantities] at this
    simpa using this)
  rw [List.nil_append] at h1
  have hd : done ≠ [] := by
    rintro rfl
    exact hi.some h2.symm
  have hmem : ∀ r, r ∈ i.order ↔ r < S.size := fun r => by rw [hi.order.mem_iff, List.mem_range]
  have hfold : ∀ (l : List ℕ), (∀ r ∈ l, r < S.size) → ∀ k, l.foldlM (closeRank S i.step i.time s) k =
      some (l.foldl (eff S i done s) k) := by
    intro l
    induction l with
    | nil => intro _ k; rfl
    | cons r l ih =>
      intro hl k
      rw [List.foldlM_cons, closeRank_eq hS hi h1 hd k (hl r List.mem_cons_self)]
      exact ih (fun r' hr' => hl r' (List.mem_cons_of_mem _ hr')) _
  have hc := closed_eff S i done s i.order k ((hi.order.nodup_iff).2 List.nodup_range)
  have hz : 0 ∈ i.order := (hmem 0).2 hS.size.1
  refine ⟨_, _, ?_, fun r hr => released (h1.rank r hr), ⟨s, O, done, h1, h2, fun r hr => ?_, ?_⟩, ?_, ?_, hc.other⟩
  · unfold writeStep
    rw [e0]
    simp only [Option.bind_eq_bind, Option.bind_some]
    rw [e1]
    simp only [Option.bind_some]
    rw [hfold i.order (fun r hr => (hmem r).1 hr) k]
    rfl
  · rw [hc.h5, if_pos ((hmem r).2 hr)]
  · rw [hc.index, if_pos hz]
  · rw [hc.steps, if_pos hz]
  · rw [hc.series, if_pos hz]

theorem run_spec [LinearOrder K] {S : Setup} (hS : S.Ok) : ∀ (l : List (StepIn K α)) (k : Disk K α), (∀ i ∈ l, i.Ok S) →
    (l.map StepIn.step).Nodup → ∃ k', l.foldlM (fun k i => (writeStep S i k).map Prod.fst) k = some k' ∧
      (∀ i ∈ l, StepFiles S k'.files i) ∧ k'.steps = k.steps ++ l.map (fun i => indexName S.base i.step) ∧
      (l ≠ [] → k'.files (inDir S.dir (seriesName S.base)) = some (.series k'.steps)) ∧
      ∀ n, (∀ i ∈ l, ∀ r, n ≠ h5Name S.base i.step r) → (∀ i ∈ l, n ≠ indexName S.base i.step) → n ≠ seriesName S.base →
        k'.files (inDir S.dir n) = k.files (inDir S.dir n) := by
  intro l
  induction l with
  | nil => intro k _ _; exact ⟨k, rfl, by simp, by simp, by simp, fun _ _ _ _ => rfl⟩
  | cons i l ih =>
    intro k hl hn
    obtain ⟨k1, live', e1, -, e3, e4, e5, e6⟩ := writeStep_spec hS (hl i List.mem_cons_self) k
    rw [List.map_cons, List.nodup_cons] at hn
    obtain ⟨k2, a1, a2, a3, a4, a5⟩ := ih k1 (fun j hj => hl j (List.mem_cons_of_mem _ hj)) hn.2
    have hne : ∀ j ∈ l, i.step ≠ j.step := fun j hj e => hn.1 (List.mem_map.2 ⟨j, hj, e.symm⟩)
    refine ⟨k2, ?_, ?_, ?_, ?_, ?_⟩
    · rw [List.foldlM_cons, e1]
      exact a1
    · intro j hj
      rcases List.mem_cons.1 hj with rfl | hj
      · obtain ⟨s, O, done, h1, h2, h3, h4⟩ := e3
        refine ⟨s, O, done, h1, h2, fun r hr => ?_, ?_⟩
        · rw [a5 _ (fun i' hi' r' e => hne i' hi' (h5Name_inj e).1) (fun i' hi' e => h5_ne_index e) h5_ne_series, h3 r hr]
        · rw [a5 _ (fun i' hi' r' e => h5_ne_index e.symm) (fun i' hi' e => hne i' hi' (indexName_inj e)) index_ne_series, h4]
      · exact a2 j hj
    · rw [a3, e4]; simp
    · intro _
      by_cases hl' : l = []
      · subst hl'
        simp only [List.foldlM_nil] at a1
        obtain rfl := Option.some.inj a1
        exact e5
      · exact a4 hl'
    · intro n n1 n2 n3
      rw [a5 n (fun j hj => n1 j (List.mem_cons_of_mem _ hj)) (fun j hj => n2 j (List.mem_cons_of_mem _ hj)) n3,
        e6 n (n1 i List.mem_cons_self) (n2 i List.mem_cons_self) n3]

end Psc.Xdmf
