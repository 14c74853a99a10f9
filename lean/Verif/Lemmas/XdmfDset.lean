import Verif.Lemmas.XdmfFld
import Verif.Lemmas.XdmfName

/-! Lemmas for C79: groups and data sets of a field -/

namespace Psc.Xdmf

open Domain Writer

variable {K α : Type}

/-- the data set of component `m` of patch `p` -/
def dsetOf (f : Fld α) (m p : ℕ) : Dset α where
  dims := ![f.ghostDims 2, f.ghostDims 1, f.ghostDims 0]
  val := fun n => f.mem (f.nd.idx ![0, 0, 0, m, p] + ((n 0 * f.ghostDims 1 + n 1) * f.ghostDims 0 + n 2))

/-- the data sets of a component -/
def compDsets (f : Fld α) (path : Str) (np : ℕ) (c : Str × ℕ) : List (List Str × Dset α) :=
  (List.range np).map fun p => ([path, c.1, pname p, ['3', 'd']], dsetOf f c.2 p)

theorem create_eq {h : H5 α} {g : List Str} (hg : g ∉ h.groups) : h.create g = some { h with groups := h.groups ++ [g] } := by
  unfold H5.create; rw [if_neg hg]

theorem write_eq {f : Fld α} (ho : f.ghostOffs = fun _ => 0) (hd : ∀ d : Fin 5, d.val < 3 → 0 < f.ghostDims d) (h : H5 α)
    (g : List Str) (m p : ℕ) :
    h.write g f.mem (f.nd.idx ![f.ghostOffs 0, f.ghostOffs 1, f.ghostOffs 2, m, p])
      ![f.ghostDims 2, f.ghostDims 1, f.ghostDims 0]
      (fun d => -(![f.ghostOffs 2, f.ghostOffs 1, f.ghostOffs 0] : Fin 3 → ℤ) d - (![0, 0, 0] : Fin 3 → ℤ) d)
      (fun d => (![f.ghostDims 2, f.ghostDims 1, f.ghostDims 0] : Fin 3 → ℤ) d +
        2 * (![f.ghostOffs 2, f.ghostOffs 1, f.ghostOffs 0] : Fin 3 → ℤ) d + 2 * (![0, 0, 0] : Fin 3 → ℤ) d) =
      some { h with dsets := h.dsets ++ [(g, dsetOf f m p)] } := by
  have e1 : (fun d => -(![f.ghostOffs 2, f.ghostOffs 1, f.ghostOffs 0] : Fin 3 → ℤ) d - (![0, 0, 0] : Fin 3 → ℤ) d) = fun _ => 0 := by
    funext d; fin_cases d <;> simp [ho]
  have e2 : (fun d => (![f.ghostDims 2, f.ghostDims 1, f.ghostDims 0] : Fin 3 → ℤ) d +
      2 * (![f.ghostOffs 2, f.ghostOffs 1, f.ghostOffs 0] : Fin 3 → ℤ) d + 2 * (![0, 0, 0] : Fin 3 → ℤ) d) =
      ![f.ghostDims 2, f.ghostDims 1, f.ghostDims 0] := by
    funext d; fin_cases d <;> simp [ho]
  rw [e1, e2]
  unfold H5.write
  rw [if_pos (by
    intro d
    refine ⟨le_rfl, ?_, (zero_add _).le⟩
    fin_cases d
    · exact hd 2 (by decide)
    · exact hd 1 (by decide)
    · exact hd 0 (by decide))]
  simp only [dsetOf, ho, zero_add]
  rfl

theorem writeComp_eq {f : Fld α} (ho : f.ghostOffs = fun _ => 0) (hd : ∀ d : Fin 5, d.val < 3 → 0 < f.ghostDims d)
    {path comp : Str} (m : ℕ) {np : ℕ} (hnp : np ≤ 10 ^ 8) {h : H5 α} (h0 : ∀ t, path :: comp :: t ∉ h.groups) :
    ∃ h', writeComp f (fun _ => 0) path comp m np h = some h' ∧ h'.dsets = h.dsets ++ compDsets f path np (comp, m) ∧
      (∀ g ∈ h'.groups, g ∈ h.groups ∨ ∃ t, g = path :: comp :: t) ∧ ∀ g ∈ h.groups, g ∈ h'.groups := by
  unfold writeComp
  rw [create_eq (h0 [])]
  simp only [Option.bind_eq_bind, Option.bind_some]
  have key : ∀ k ≤ np, ∃ h', (List.range k).foldlM (fun h p => (patchName p).bind fun s => (h.create [path, comp, s]).bind fun h =>
      h.write [path, comp, s, ['3', 'd']] f.mem (f.nd.idx ![f.ghostOffs 0, f.ghostOffs 1, f.ghostOffs 2, m, p])
        ![f.ghostDims 2, f.ghostDims 1, f.ghostDims 0]
        (fun d => -(![f.ghostOffs 2, f.ghostOffs 1, f.ghostOffs 0] : Fin 3 → ℤ) d - (![0, 0, 0] : Fin 3 → ℤ) d)
        (fun d => (![f.ghostDims 2, f.ghostDims 1, f.ghostDims 0] : Fin 3 → ℤ) d +
          2 * (![f.ghostOffs 2, f.ghostOffs 1, f.ghostOffs 0] : Fin 3 → ℤ) d + 2 * (![0, 0, 0] : Fin 3 → ℤ) d))
      ({ h with groups := h.groups ++ [[path, comp]] } : H5 α) = some h' ∧
      h'.groups = h.groups ++ [path, comp] :: (List.range k).map (fun p => [path, comp, pname p]) ∧
      h'.dsets = h.dsets ++ compDsets f path k (comp, m) := by
    intro k
    induction k with
    | zero => intro _; exact ⟨_, rfl, rfl, by simp [compDsets]⟩
    | succ k ih =>
      intro hk
      obtain ⟨h', e1, e2, e3⟩ := ih (by omega)
      rw [List.range_succ, List.foldlM_append, e1]
      simp only [List.foldlM_cons, List.foldlM_nil, Option.bind_eq_bind, Option.bind_some, patchName_eq (show k < 10 ^ 8 by omega)]
      rw [create_eq (by
        rw [e2, List.mem_append]
        rintro (hg | hg)
        · exact h0 [pname k] hg
        · rcases List.mem_cons.1 hg with hg | hg
          · simp at hg
          · obtain ⟨p, hp, e⟩ := List.mem_map.1 hg
            have : p = k := pname_inj (by simpa using e)
            have := List.mem_range.1 hp
            omega)]
      simp only [Option.bind_some]
      rw [write_eq ho hd]
      refine ⟨_, rfl, ?_, ?_⟩
      · simp [e2]
      · simp [e3, compDsets, List.range_succ]
  obtain ⟨h', e1, e2, e3⟩ := key np le_rfl
  refine ⟨h', e1, e3, fun g hg => ?_, fun g hg => by rw [e2]; exact List.mem_append_left _ hg⟩
  rw [e2, List.mem_append] at hg
  rcases hg with hg | hg
  · exact Or.inl hg
  · right
    rcases List.mem_cons.1 hg with hg | hg
    · exact ⟨[], hg⟩
    · obtain ⟨p, -, e⟩ := List.mem_map.1 hg
      exact ⟨[pname p], e.symm⟩

theorem comps_eq {f : Fld α} (ho : f.ghostOffs = fun _ => 0) (hd : ∀ d : Fin 5, d.val < 3 → 0 < f.ghostDims d)
    {path : Str} {np : ℕ} (hnp : np ≤ 10 ^ 8) : ∀ (comps : List Str) (k : ℕ) (xs : Spatial K) (h : H5 α), comps.Nodup →
    (∀ c ∈ comps, ∀ t, path :: c :: t ∉ h.groups) → xs.flds.length + comps.length ≤ 100 →
    ∃ h', (comps.zipIdx k).foldlM (fun (s : Spatial K × H5 α) cm => (s.1.save cm.1 path).bind fun xs =>
        (writeComp f (fun _ => 0) path cm.1 cm.2 np s.2).bind fun file => some (xs, file)) (xs, h) =
        some ({ xs with flds := xs.flds ++ comps.map fun c => (c, path) }, h') ∧
      h'.dsets = h.dsets ++ (comps.zipIdx k).flatMap (compDsets f path np) ∧
      (∀ g ∈ h'.groups, g ∈ h.groups ∨ ∃ t, g = path :: t) ∧ ∀ g ∈ h.groups, g ∈ h'.groups := by
  intro comps
  induction comps with
  | nil => intro k xs h _ _ _; exact ⟨h, by simp, by simp, fun g hg => Or.inl hg, fun g hg => hg⟩
  | cons c comps ih =>
    intro k xs h hn h0 hl
    obtain ⟨h1, e1, e2, e3, e4⟩ := writeComp_eq ho hd k hnp (h0 c List.mem_cons_self)
    rw [List.length_cons] at hl
    obtain ⟨h2, a1, a2, a3, a4⟩ := ih (k + 1) { xs with flds := xs.flds ++ [(c, path)] } h1 (List.nodup_cons.1 hn).2 (by
      intro c' hc' t ht
      rcases e3 _ ht with ht | ⟨t', ht⟩
      · exact h0 c' (List.mem_cons_of_mem _ hc') t ht
      · have : c' = c := by injection ht with _ ht; injection ht
        exact (List.nodup_cons.1 hn).1 (this ▸ hc')) (by simp; omega)
    refine ⟨h2, ?_, ?_, ?_, fun g hg => a4 g (e4 g hg)⟩
    · rw [List.zipIdx_cons, List.foldlM_cons]
      have hs : xs.save c path = some { xs with flds := xs.flds ++ [(c, path)] } := by
        unfold Spatial.save; rw [if_pos (by omega)]
      simp only [hs, e1, Option.bind_some, Option.bind_eq_bind]
      rw [a1]
      simp
    · rw [a2, e2, List.zipIdx_cons, List.flatMap_cons, List.append_assoc]
    · intro g hg
      rcases a3 g hg with hg | hg
      · rcases e3 g hg with hg | ⟨t, hg⟩
        · exact Or.inl hg
        · exact Or.inr ⟨c :: t, hg⟩
      · exact Or.inr hg

/-- values of a data set -/
theorem dsetOf_val {ldims : P3} {np nc : ℕ} {e : ℕ → ℕ → (Fin 3 → ℕ) → α} {f : Fld α}
    (hg : f.ghostDims = ![(ldims 0 : ℤ), ldims 1, ldims 2, nc, np])
    (hi : ∀ i : Fin 5 → ℤ, f.nd.idx i = pos ldims nc ![i 0, i 1, i 2] (i 3) (i 4))
    (hv : ∀ p m (i : Fin 3 → ℕ), p < np → m < nc → (∀ d, i d < ldims d) → f.mem (pos ldims nc (fun d => i d) m p) = e p m i)
    {m p : ℕ} (hm : m < nc) (hp : p < np) :
    (dsetOf f m p).dims = ![(ldims 2 : ℤ), ldims 1, ldims 0] ∧
      ∀ j : Fin 3 → ℕ, (∀ d, j d < ldims d) → (dsetOf f m p).val (fun d => j (rev d)) = e p m j := by
  constructor
  · simp only [dsetOf, hg]; rfl
  · intro j hj
    rw [← hv p m j hp hm hj]
    simp only [dsetOf, hg, hi]
    congr 1
    show pos ldims nc ![0, 0, 0] m p + (((j 2 : ℤ) * ldims 1 + j 1) * ldims 0 + j 0) = _
    unfold pos
    show (0 : ℤ) + ldims 0 * (0 + ldims 1 * (0 + ldims 2 * (m + nc * p))) + _ = _
    ring

end Psc.Xdmf
