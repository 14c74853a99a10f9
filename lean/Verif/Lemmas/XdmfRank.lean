import Verif.Lemmas.XdmfDset
import Verif.Lemmas.Balance

/-! Lemmas for C79: a field written by one rank -/

namespace Psc.Xdmf

open Domain Writer

variable {K α : Type} [Field K]

theorem addObj_new {L : Local K α} {path : Str} {a : ℕ} (h : ∀ o ∈ L.objs, o.1 ≠ path) :
    L.addObj path a = some (false, { L with objs := L.objs ++ [(path, a)], live := a :: L.live }) := by
  unfold Local.addObj
  rw [List.find?_eq_none.2 (by simpa using h)]

theorem addObj_old {L : Local K α} {path : Str} {a : ℕ} (h : ∃ o ∈ L.objs, o.1 = path) (h' : ∀ o ∈ L.objs, o.1 = path → o.2 = a) :
    L.addObj path a = some (true, L) := by
  unfold Local.addObj
  cases e : L.objs.find? fun x => x.1 = path with
  | none =>
    obtain ⟨o, ho, hp⟩ := h
    exact absurd hp (by simpa using List.find?_eq_none.1 e o ho)
  | some x =>
    have h1 := List.find?_some e
    have h2 := h' x (List.mem_of_find?_eq_some e) (by simpa using h1)
    simp [h2]

theorem forAttr_new {h : H5 α} {g : List Str} (hg : g ∉ h.groups) : h.forAttr g = some { h with groups := h.groups ++ [g] } := by
  unfold H5.forAttr; rw [if_neg hg, create_eq hg]

theorem forAttr_spec (h : H5 α) (g : List Str) : ∃ h', h.forAttr g = some h' ∧ h'.dsets = h.dsets ∧ g ∈ h'.groups ∧
    (∀ x ∈ h'.groups, x ∈ h.groups ∨ x = g) ∧ ∀ x ∈ h.groups, x ∈ h'.groups := by
  by_cases hg : g ∈ h.groups
  · exact ⟨h, by unfold H5.forAttr; rw [if_pos hg], rfl, hg, fun x hx => Or.inl hx, fun x hx => hx⟩
  · refine ⟨_, forAttr_new hg, rfl, by simp, fun x hx => ?_, fun x hx => List.mem_append_left _ hx⟩
    simpa using hx

/-- writing an object without data -/
theorem writeObj_new {L : Local K α} {path : Str} {a : ℕ} (h : ∀ o ∈ L.objs, o.1 ≠ path) :
    ∃ h', L.writeObj path a = some { L with objs := L.objs ++ [(path, a)], live := a :: L.live, file := h' } ∧
      h'.dsets = L.file.dsets ∧ (∀ x ∈ h'.groups, x ∈ L.file.groups ∨ x = [path]) ∧ ∀ x ∈ L.file.groups, x ∈ h'.groups := by
  obtain ⟨h', e1, e2, -, e4, e5⟩ := forAttr_spec L.file [path]
  refine ⟨h', ?_, e2, e4, e5⟩
  unfold Local.writeObj
  rw [addObj_new h]
  simp only [Option.bind_eq_bind, Option.bind_some, Bool.false_eq_true, if_false, e1]

theorem writeObj_old {L : Local K α} {path : Str} {a : ℕ} (h : ∃ o ∈ L.objs, o.1 = path) (h' : ∀ o ∈ L.objs, o.1 = path → o.2 = a) :
    L.writeObj path a = some L := by
  unfold Local.writeObj
  rw [addObj_old h h']
  simp only [Option.bind_eq_bind, Option.bind_some, if_true]

theorem write_m3_eq {L : Local K α} {G : Dom K} {r : ℕ} {path : Str} {comps : List Str} {f : Fld α} {xs : Spatial K}
    (ho : f.ghostOffs = fun _ => 0) (hd : ∀ d : Fin 5, d.val < 3 → 0 < f.ghostDims d) (hnp : G.D.nr_patches r ≤ 10 ^ 8)
    (hg : [path] ∈ L.file.groups) (hx : L.index G r 0 = some xs) (hn : comps.Nodup)
    (h0 : ∀ c t, path :: c :: t ∉ L.file.groups) (hl : xs.flds.length + comps.length ≤ 100) :
    ∃ h', L.write_m3 G 0 r path comps f = some { L with file := h', spatials :=
        { xs with flds := xs.flds ++ comps.map fun c => (c, path) } :: L.spatials.filter fun x => x.name ≠ G.name } ∧
      h'.dsets = L.file.dsets ++ comps.zipIdx.flatMap (compDsets f path (G.D.nr_patches r)) ∧
      (∀ g ∈ h'.groups, g ∈ L.file.groups ∨ ∃ t, g = path :: t) ∧ ∀ g ∈ L.file.groups, g ∈ h'.groups := by
  obtain ⟨h', e1, e2, e3, e4⟩ := comps_eq (K := K) ho hd hnp comps 0 xs L.file hn (fun c _ t => h0 c t) hl
  refine ⟨h', ?_, e2, e3, e4⟩
  unfold Local.write_m3
  have hsw : (fun d => if G.gdims d > 1 then ((0 : ℕ) : ℤ) else 0) = fun _ => 0 := by funext d; split_ifs <;> rfl
  simp only [hsw]
  rw [if_pos hg]
  rw [hx]
  simp only [Option.bind_eq_bind, Option.bind_some]
  rw [e1]
  rfl

/-- the data of component `m` of patch `p` of rank `r` -/
def IsData (G : Dom K) (f : FldIn α) (r p m : ℕ) (ds : Dset α) : Prop :=
  ds.dims = ![(G.ldims 2 : ℤ), G.ldims 1, G.ldims 0] ∧
    ∀ j : Fin 3 → ℕ, (∀ d, j d < G.ldims d) → ds.val (fun d => j (rev d)) = f.val r p m j

/-- what writing a field adds to the file of a rank -/
structure Added (G : Dom K) (f : FldIn α) (path : Str) (r : ℕ) (new : List (List Str × Dset α)) : Prop where
  nodup : (new.map Prod.fst).Nodup
  head : ∀ x ∈ new, x.1.head? = some path
  data : ∀ c ∈ f.comps.zipIdx, ∀ p < G.D.nr_patches r, ∃ ds, ([path, c.1, pname p, ['3', 'd']], ds) ∈ new ∧ IsData G f r p c.2 ds

theorem added {G : Dom K} {f : FldIn α} {path : Str} {r : ℕ} {F : Fld α} (hn : f.comps.Nodup)
    (hg : F.ghostDims = ![(G.ldims 0 : ℤ), G.ldims 1, G.ldims 2, f.comps.length, G.D.nr_patches r])
    (hi : ∀ i : Fin 5 → ℤ, F.nd.idx i = pos G.ldims f.comps.length ![i 0, i 1, i 2] (i 3) (i 4))
    (hv : ∀ p m (i : Fin 3 → ℕ), p < G.D.nr_patches r → m < f.comps.length → (∀ d, i d < G.ldims d) →
      F.mem (pos G.ldims f.comps.length (fun d => i d) m p) = f.val r p m i) :
    Added G f path r (f.comps.zipIdx.flatMap (compDsets F path (G.D.nr_patches r))) where
  nodup := by
    rw [List.map_flatMap]
    have : ∀ (l : List Str) (k : ℕ), l.Nodup → ((l.zipIdx k).flatMap fun c =>
        (compDsets F path (G.D.nr_patches r) c).map Prod.fst).Nodup := by
      intro l
      induction l with
      | nil => intro k _; simp
      | cons c l ih =>
        intro k hl
        rw [List.zipIdx_cons, List.flatMap_cons, List.nodup_append]
        refine ⟨?_, ih _ (List.nodup_cons.1 hl).2, ?_⟩
        · simp only [compDsets, List.map_map]
          refine List.Nodup.map (fun p q h => ?_) List.nodup_range
          exact pname_inj (by simpa using h)
        · rintro x hx y hy rfl
          obtain ⟨⟨c', k'⟩, hc', hy⟩ := List.mem_flatMap.1 hy
          simp only [compDsets, List.map_map, List.mem_map, Function.comp] at hx hy
          obtain ⟨p, -, rfl⟩ := hx
          obtain ⟨q, -, e⟩ := hy
          have : c' = c := by injection e with _ e; injection e
          subst this
          exact (List.nodup_cons.1 hl).1 (List.fst_mem_of_mem_zipIdx hc')
    exact this _ _ hn
  head := by
    intro x hx
    obtain ⟨c, -, hx⟩ := List.mem_flatMap.1 hx
    obtain ⟨p, -, rfl⟩ := List.mem_map.1 hx
    rfl
  data := by
    rintro ⟨c, m⟩ hc p hp
    refine ⟨dsetOf F m p, List.mem_flatMap.2 ⟨(c, m), hc, List.mem_map.2 ⟨p, List.mem_range.2 hp, rfl⟩⟩, ?_⟩
    have hm : m < f.comps.length := by
      have := List.mem_zipIdx hc
      omega
    exact dsetOf_val hg hi hv hm hp

/-- a field written by a rank -/
theorem writeFld_rank {L : Local K α} {G : Dom K} {f : FldIn α} {path dpath : Str} {r a : ℕ} {xs : Spatial K}
    (hL : ∀ d, 0 < G.ldims d) (hnp : 0 < G.D.nr_patches r) (hnp' : G.D.nr_patches r ≤ 10 ^ 8) (hc : f.comps ≠ []) (hn : f.comps.Nodup)
    (hlen : G.ldims 0 * G.ldims 1 * G.ldims 2 * f.comps.length * G.D.nr_patches r < 2 ^ 31)
    (hp : ∀ o ∈ L.objs, o.1 ≠ path) (hpd : path ≠ dpath) (hdom : ∀ o ∈ L.objs, o.1 = dpath → o.2 = G.addr r)
    (hg : ∀ g ∈ L.file.groups, g.head? ≠ some path) (hx : L.index G r 0 = some xs) (hl : xs.flds.length + f.comps.length ≤ 100) :
    ∃ L' new, L.writeFld 0 G f path dpath r a = some L' ∧
      L'.objs = L.objs ++ (path, a) :: (if ∃ o ∈ L.objs, o.1 = dpath then [] else [(dpath, G.addr r)]) ∧
      L'.live.Perm ((a :: (if ∃ o ∈ L.objs, o.1 = dpath then [] else [G.addr r])) ++ L.live) ∧
      (∀ g ∈ L'.file.groups, g ∈ L.file.groups ∨ g.head? = some path ∨ g = [dpath] ∧ ¬∃ o ∈ L.objs, o.1 = dpath) ∧
      L'.file.dsets = L.file.dsets ++ new ∧ Added G f path r new ∧
      L'.spatials = { xs with flds := xs.flds ++ f.comps.map fun c => (c, path) } :: L.spatials.filter fun x => x.name ≠ G.name := by
  have hc0 : 0 < f.comps.length := List.length_pos_iff.2 hc
  obtain ⟨F, F', e1, e2, e3, e4, e5, e6⟩ := copied (old := f.old) (f.val r) hc0 hnp hlen
  unfold Local.writeFld
  simp only [e1, e2, Option.bind_eq_bind, Option.bind_some]
  rw [addObj_new (L := L.created a) hp]
  simp only [Option.bind_some, Bool.false_eq_true, if_false]
  have hg1 : [path] ∉ L.file.groups := fun h => hg _ h rfl
  simp only [Local.created]
  rw [forAttr_new hg1]
  simp only [Option.bind_some]
  have hgt : ∀ c t, path :: c :: t ∉ L.file.groups := fun c t h => hg _ h rfl
  have hd : ∀ d : Fin 5, d.val < 3 → 0 < F'.ghostDims d := by
    intro d hd
    rw [e3]
    have := hL 0
    have := hL 1
    have := hL 2
    fin_cases d
    · show (0 : ℤ) < G.ldims 0; omega
    · show (0 : ℤ) < G.ldims 1; omega
    · show (0 : ℤ) < G.ldims 2; omega
    · exact absurd hd (by decide)
    · exact absurd hd (by decide)
  have hA := added (path := path) hn e3 e5 e6
  by_cases hdm : ∃ o ∈ L.objs, o.1 = dpath
  · rw [writeObj_old (by obtain ⟨o, ho, h⟩ := hdm; exact ⟨o, List.mem_append_left _ ho, h⟩) (by
      intro o ho h
      rcases List.mem_append.1 ho with ho | ho
      · exact hdom o ho h
      · rw [List.mem_singleton.1 ho] at h; exact absurd h hpd)]
    simp only [Option.bind_some]
    obtain ⟨h', a1, a2, a3, a4⟩ := write_m3_eq (comps := f.comps) (path := path) (L := (⟨a :: a :: L.live, L.nalloc + 1, L.objs ++ [(path, a)],
      ⟨L.file.groups ++ [[path]], L.file.dsets⟩, L.spatials⟩ : Local K α)) e4 hd hnp'
      (by simp) (xs := xs) hx hn (by
        intro c t h
        rcases List.mem_append.1 h with h | h
        · exact hgt c t h
        · simp at h) hl
    obtain ⟨h'', b1, b2, -, b4, b5⟩ := forAttr_spec h' [path]
    refine ⟨⟨(a :: a :: L.live).erase a, L.nalloc + 1, L.objs ++ [(path, a)], h'',
      { xs with flds := xs.flds ++ f.comps.map fun c => (c, path) } :: L.spatials.filter fun x => x.name ≠ G.name⟩,
      f.comps.zipIdx.flatMap (compDsets F' path (G.D.nr_patches r)), ?_, ?_, ?_, ?_, ?_, hA, ?_⟩
    · refine (congrArg (fun o => Option.bind o fun L => (L.file.forAttr [path]).bind fun file =>
        some (Local.put { L with file := file } a)) a1).trans ?_
      simp only [Option.bind_some, b1]
      rfl
    · rw [if_pos hdm]
    · rw [if_pos hdm]
      show ((a :: a :: L.live).erase a).Perm _
      simp
    · intro g hg'
      rcases b4 g hg' with hg' | rfl
      · rcases a3 g hg' with hg' | ⟨t, rfl⟩
        · rcases List.mem_append.1 hg' with hg' | hg'
          · exact Or.inl hg'
          · rw [List.mem_singleton.1 hg']; exact Or.inr (Or.inl rfl)
        · exact Or.inr (Or.inl rfl)
      · exact Or.inr (Or.inl rfl)
    · show h''.dsets = _
      rw [b2, a2]
    · rfl
  · obtain ⟨hw, c1, c2, c3, c4⟩ := writeObj_new (a := G.addr r) (path := dpath) (L := (⟨a :: a :: L.live, L.nalloc + 1, L.objs ++ [(path, a)],
      ⟨L.file.groups ++ [[path]], L.file.dsets⟩, L.spatials⟩ : Local K α)) (by
      intro o ho h
      rcases List.mem_append.1 ho with ho | ho
      · exact hdm ⟨o, ho, h⟩
      · rw [List.mem_singleton.1 ho] at h; exact absurd h hpd)
    rw [c1]
    simp only [Option.bind_some]
    obtain ⟨h', a1, a2, a3, a4⟩ := write_m3_eq (comps := f.comps) (path := path) (L := (⟨G.addr r :: a :: a :: L.live, L.nalloc + 1,
      L.objs ++ [(path, a)] ++ [(dpath, G.addr r)], hw, L.spatials⟩ : Local K α)) e4 hd hnp'
      (c4 _ (by simp)) (xs := xs) hx hn (by
        intro c t h
        rcases c3 _ h with h | h
        · rcases List.mem_append.1 h with h | h
          · exact hgt c t h
          · simp at h
        · simp at h) hl
    obtain ⟨h'', b1, b2, -, b4, b5⟩ := forAttr_spec h' [path]
    refine ⟨⟨(G.addr r :: a :: a :: L.live).erase a, L.nalloc + 1, L.objs ++ [(path, a)] ++ [(dpath, G.addr r)], h'',
      { xs with flds := xs.flds ++ f.comps.map fun c => (c, path) } :: L.spatials.filter fun x => x.name ≠ G.name⟩,
      f.comps.zipIdx.flatMap (compDsets F' path (G.D.nr_patches r)), ?_, ?_, ?_, ?_, ?_, hA, ?_⟩
    · refine (congrArg (fun o => Option.bind o fun L => (L.file.forAttr [path]).bind fun file =>
        some (Local.put { L with file := file } a)) a1).trans ?_
      simp only [Option.bind_some, b1]
      rfl
    · rw [if_neg hdm]
      show L.objs ++ [(path, a)] ++ [(dpath, G.addr r)] = _
      simp
    · rw [if_neg hdm]
      show ((G.addr r :: a :: a :: L.live).erase a).Perm _
      refine ((List.Perm.swap _ _ _).erase a).trans ?_
      simp only [List.erase_cons_head, List.cons_append, List.nil_append]
      exact List.Perm.swap _ _ _
    · intro g hg'
      rcases b4 g hg' with hg' | rfl
      · rcases a3 g hg' with hg' | ⟨t, rfl⟩
        · rcases c3 g hg' with hg' | rfl
          · rcases List.mem_append.1 hg' with hg' | hg'
            · exact Or.inl hg'
            · rw [List.mem_singleton.1 hg']; exact Or.inr (Or.inl rfl)
          · exact Or.inr (Or.inr ⟨rfl, hdm⟩)
        · exact Or.inr (Or.inl rfl)
      · exact Or.inr (Or.inl rfl)
    · show h''.dsets = _
      rw [b2, a2, c2]
    · rfl

end Psc.Xdmf
