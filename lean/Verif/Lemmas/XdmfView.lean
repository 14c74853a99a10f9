import Verif.Lemmas.XdmfClose
import Verif.Props.Domain
import Mathlib.Tactic.Linarith

/-! Lemmas for C79: what a viewer sees -/

namespace Psc.Xdmf

open Domain Writer

variable {K α : Type} [Field K] [LinearOrder K] [IsStrictOrderedRing K]

/-- size of a cell -/
def Dom.h (G : Dom K) (d : Fin 3) : K := G.length d / G.gdims d

theorem dxBase_eq (G : Dom K) (r : ℕ) (d : Fin 3) : G.dxBase r d = G.h d := by
  unfold Dom.dxBase Dom.crd Dom.h
  simp only [add_sub_cancel_left]
  push_cast
  ring

theorem gdims_pos {S : Setup} {i : StepIn K α} (hi : i.Ok S) (hS : S.Ok) (d : Fin 3) : 0 < i.G.gdims d := by
  have h0 := hi.patches 0 hS.size.1
  have hh : i.G.D.Has 0 0 := ⟨by rw [hi.size]; exact hS.size.1, h0.1⟩
  have := (Props.C25_idx3_owner i.G.D hi.valid 0 0 hh).1 d
  unfold Dom.gdims
  exact Nat.mul_pos (by omega) (hi.ldims d)

theorem h_pos {S : Setup} {i : StepIn K α} (hi : i.Ok S) (hS : S.Ok) (d : Fin 3) : 0 < i.G.h d := by
  unfold Dom.h
  exact div_pos (hi.length d) (by exact_mod_cast gdims_pos hi hS d)

/-- the `gp`-th patch of the index -/
theorem pinfo_of {G : Dom K} {r p : ℕ} (h : G.D.Has r p) (q : ℕ) :
    pinfo G q (gpatch_off_all G.D.counts r + p) = ⟨r, p, fun d => G.ldims d,
      fun d => G.corner d + Decomp.off G.ldims (G.D.idx3 r p) d * G.h d, fun d => G.h d⟩ := by
  unfold pinfo
  rw [g2rp_of _ h.1 h.2]
  simp only [dxBase_eq, Option.getD_some]
  rfl

theorem rev_rev (d : Fin 3) : rev (rev d) = d := by fin_cases d <;> rfl

/-- a grid of the index covers what its patch covers -/
theorem covers_iff {G : Dom K} {r p : ℕ} (h : G.D.Has r p) (base : Str) (step q : ℕ) (flds : List (Str × Str)) (x : Fin 3 → K)
    (n : Fin 3 → ℤ) : (xg base step flds (pinfo G q (gpatch_off_all G.D.counts r + p))).Covers x n ↔
      ∀ d, 0 ≤ n (rev d) ∧ n (rev d) < G.ldims d ∧
        G.corner d + ((G.D.idx3 r p d * G.ldims d + n (rev d) : ℤ) : K) * G.h d ≤ x d ∧
        x d < G.corner d + ((G.D.idx3 r p d * G.ldims d + n (rev d) : ℤ) + 1) * G.h d := by
  rw [pinfo_of h]
  have key : ∀ d, (0 ≤ n d ∧ n d + 1 < (xg base step flds (⟨r, p, fun d => G.ldims d,
      fun d => G.corner d + Decomp.off G.ldims (G.D.idx3 r p) d * G.h d, fun d => G.h d⟩ : PatchInfo K)).dims d ∧
      G.corner (rev d) + Decomp.off G.ldims (G.D.idx3 r p) (rev d) * G.h (rev d) + n d * G.h (rev d) ≤ x (rev d) ∧
      x (rev d) < G.corner (rev d) + Decomp.off G.ldims (G.D.idx3 r p) (rev d) * G.h (rev d) + (n d + 1) * G.h (rev d)) ↔
      (0 ≤ n d ∧ n d < G.ldims (rev d) ∧
        G.corner (rev d) + ((G.D.idx3 r p (rev d) * G.ldims (rev d) + n d : ℤ) : K) * G.h (rev d) ≤ x (rev d) ∧
        x (rev d) < G.corner (rev d) + ((G.D.idx3 r p (rev d) * G.ldims (rev d) + n d : ℤ) + 1) * G.h (rev d)) := by
    intro d
    have e1 : (xg base step flds (⟨r, p, fun d => G.ldims d,
      fun d => G.corner d + Decomp.off G.ldims (G.D.idx3 r p) d * G.h d, fun d => G.h d⟩ : PatchInfo K)).dims d =
        (G.ldims (rev d) : ℤ) + 1 := by fin_cases d <;> rfl
    rw [e1]
    have e2 : G.corner (rev d) + ((G.D.idx3 r p (rev d) * G.ldims (rev d) + n d : ℤ) : K) * G.h (rev d) =
        G.corner (rev d) + Decomp.off G.ldims (G.D.idx3 r p) (rev d) * G.h (rev d) + n d * G.h (rev d) := by
      unfold Decomp.off; push_cast; ring
    have e3 : G.corner (rev d) + ((G.D.idx3 r p (rev d) * G.ldims (rev d) + n d : ℤ) + 1) * G.h (rev d) =
        G.corner (rev d) + Decomp.off G.ldims (G.D.idx3 r p) (rev d) * G.h (rev d) + (n d + 1) * G.h (rev d) := by
      unfold Decomp.off; push_cast; ring
    rw [e2, e3]
    exact and_congr_right fun _ => and_congr_left fun _ => by omega
  have hl : ∀ d : Fin 3, (xg base step flds (⟨r, p, fun d => G.ldims d,
      fun d => G.corner d + Decomp.off G.ldims (G.D.idx3 r p) d * G.h d, fun d => G.h d⟩ : PatchInfo K)).origin d =
        G.corner (rev d) + Decomp.off G.ldims (G.D.idx3 r p) (rev d) * G.h (rev d) ∧
      (xg base step flds (⟨r, p, fun d => G.ldims d,
      fun d => G.corner d + Decomp.off G.ldims (G.D.idx3 r p) d * G.h d, fun d => G.h d⟩ : PatchInfo K)).dxdydz d = G.h (rev d) := by
    intro d; fin_cases d <;> exact ⟨rfl, rfl⟩
  unfold XGrid.Covers
  simp only [hl]
  constructor
  · intro H d
    have := (key (rev d)).1 (H (rev d))
    simpa only [rev_rev] using this
  · intro H d
    refine (key d).2 ?_
    have := H (rev d)
    simpa only [rev_rev] using this

/-- a point lies in one cell only -/
theorem cell_unique {c h x : K} (hh : 0 < h) {a b : ℤ} (a1 : c + a * h ≤ x) (a2 : x < c + (a + 1) * h) (b1 : c + b * h ≤ x)
    (b2 : x < c + (b + 1) * h) : a = b := by
  have h1 : (a : K) * h < (b + 1) * h := by linarith
  have h2 : (b : K) * h < (a + 1) * h := by linarith
  have h3 : (a : K) < (b + 1 : ℤ) := by push_cast; exact lt_of_mul_lt_mul_right h1 hh.le
  have h4 : (b : K) < (a + 1 : ℤ) := by push_cast; exact lt_of_mul_lt_mul_right h2 hh.le
  have h5 := Int.cast_lt.1 h3
  have h6 := Int.cast_lt.1 h4
  omega

/-- a cell of the box belongs to a patch -/
theorem cell_owner {G : Dom K} (hv : G.D.Valid) (hL : ∀ d, 0 < G.ldims d) {g : Fin 3 → ℤ} (hg : ∀ d, 0 ≤ g d ∧ g d < G.gdims d) :
    ∃ r p, G.D.Has r p ∧ ∃ j : Fin 3 → ℕ, (∀ d, j d < G.ldims d) ∧ ∀ d, g d = G.D.idx3 r p d * G.ldims d + j d := by
  have q1 : ∀ d, (g d).toNat / G.ldims d < G.D.np d := by
    intro d
    have := hg d
    unfold Dom.gdims at this
    refine (Nat.div_lt_iff_lt_mul (hL d)).2 ?_
    omega
  obtain ⟨r, p, -, hp, hi⟩ := Props.C25_owner_idx3 G.D hv (fun d => (g d).toNat / G.ldims d) q1
  refine ⟨r, p, hp, fun d => (g d).toNat % G.ldims d, fun d => Nat.mod_lt _ (hL d), fun d => ?_⟩
  rw [hi]
  have := Nat.div_add_mod (g d).toNat (G.ldims d)
  have h2 := Int.toNat_of_nonneg (hg d).1
  have h3 : (((g d).toNat / G.ldims d * G.ldims d + (g d).toNat % G.ldims d : ℕ) : ℤ) = g d := by
    rw [mul_comm, this, h2]
  exact_mod_cast h3.symm

/-- ... and to one only -/
theorem owner_unique {G : Dom K} (hv : G.D.Valid) (hL : ∀ d, 0 < G.ldims d) {r p r' p' : ℕ} (h : G.D.Has r p) (h' : G.D.Has r' p')
    {n n' : Fin 3 → ℤ} (hn : ∀ d, 0 ≤ n d ∧ n d < G.ldims d) (hn' : ∀ d, 0 ≤ n' d ∧ n' d < G.ldims d)
    (e : ∀ d, (G.D.idx3 r p d * G.ldims d + n d : ℤ) = G.D.idx3 r' p' d * G.ldims d + n' d) : r = r' ∧ p = p' ∧ n = n' := by
  have k : ∀ d, n d = n' d ∧ (G.D.idx3 r p d : ℤ) = G.D.idx3 r' p' d := by
    intro d
    refine pair_inj (L := G.ldims d) (hn d) (hn' d) ?_
    have := e d
    linarith
  have ei : G.D.idx3 r p = G.D.idx3 r' p' := funext fun d => by exact_mod_cast (k d).2
  have o1 := (Props.C25_idx3_owner G.D hv r p h).2
  have o2 := (Props.C25_idx3_owner G.D hv r' p' h').2
  rw [ei, o2] at o1
  simp only [Option.some.injEq, Prod.mk.injEq] at o1
  exact ⟨o1.1.symm, o1.2.symm, funext fun d => (k d).1⟩

omit [Field K] [LinearOrder K] [IsStrictOrderedRing K] in
theorem get_of_mem {f : H5 α} (hk : (f.dsets.map Prod.fst).Nodup) {p : List Str} {ds : Dset α} (h : (p, ds) ∈ f.dsets) :
    f.get p = some ds := by
  unfold H5.get
  generalize f.dsets = l at *
  induction l with
  | nil => simp at h
  | cons x l ih =>
    rw [List.map_cons, List.nodup_cons] at hk
    rcases List.mem_cons.1 h with rfl | h
    · simp
    · rw [List.find?_cons]
      have : x.1 ≠ p := fun e => hk.1 (e ▸ List.mem_map.2 ⟨_, h, rfl⟩)
      simp only [this, decide_false]
      exact ih hk.2 h

/-- the quantities with the paths they have in the files -/
def withPaths (done : List (FldIn α × Str)) : List ((FldIn α × Str) × Str × ℕ) :=
  done.flatMap fun d => d.1.comps.zipIdx.map fun c => (d, c)

omit [Field K] [LinearOrder K] [IsStrictOrderedRing K] in
theorem quantities_eq {i : StepIn K α} {done : List (FldIn α × Str)} (h : done.map Prod.fst = i.flds) :
    i.quantities = (withPaths done).map fun x => (x.1.1, x.2) := by
  unfold StepIn.quantities withPaths
  rw [← h, List.flatMap_map, List.map_flatMap]
  simp [List.map_map, Function.comp_def]

theorem flds_eq (done : List (FldIn α × Str)) :
    (done.flatMap fun d => d.1.comps.map fun c => (c, d.2)) = (withPaths done).map fun x => (x.2.1, x.1.2) := by
  unfold withPaths
  rw [List.map_flatMap]
  refine List.flatMap_congr ?_
  intro d _
  rw [List.map_map, ← List.zipIdx_map_fst 0 d.1.comps, List.map_map]
  simp [Function.comp_def]

/-- a viewer sees a step that is in the files -/
theorem seen {S : Setup} {i : StepIn K α} (hS : S.Ok) (hi : i.Ok S) {files : Str → Option (File K α)} (h : StepFiles S files i) :
    ∃ idx, files (inDir S.dir (indexName S.base i.step)) = some (.index idx) ∧ Seen files S.dir i idx := by
  obtain ⟨s, O, done, hM, hd, hf, hx⟩ := h
  have hsum : i.G.n = i.G.D.counts.sum := hi.valid.sum.symm
  have hgr : ∀ {q : ℕ} {g : XGrid K}, (theIndex S i done).grids[q]? = some g → ∃ r p, i.G.D.Has r p ∧
      q = gpatch_off_all i.G.D.counts r + p ∧
      g = xg S.base i.step (done.flatMap fun d => d.1.comps.map fun c => (c, d.2)) (pinfo i.G 0 q) := by
    intro q g hg
    unfold theIndex at hg
    rw [List.getElem?_map, Option.map_eq_some_iff] at hg
    obtain ⟨q', hq, rfl⟩ := hg
    obtain ⟨hq1, hq2⟩ := List.getElem?_eq_some_iff.1 hq
    rw [List.getElem_range] at hq2
    rw [List.length_range, hsum] at hq1
    obtain ⟨r, p, hr, hp, e⟩ := exists_owner _ hq1
    exact ⟨r, p, ⟨hr, hp⟩, e.symm, by rw [hq2]⟩
  have hgo : ∀ {r p : ℕ}, i.G.D.Has r p → (theIndex S i done).grids[gpatch_off_all i.G.D.counts r + p]? =
      some (xg S.base i.step (done.flatMap fun d => d.1.comps.map fun c => (c, d.2)) (pinfo i.G 0 (gpatch_off_all i.G.D.counts r + p))) := by
    intro r p hh
    have := (Props.C25_owner_of_local _ r p hh.1 hh.2).1
    unfold theIndex
    rw [List.getElem?_map, List.getElem?_range (by rw [hsum]; exact this)]
    rfl
  refine ⟨_, hx, rfl, ?_, ?_, ?_⟩
  · intro g hg
    obtain ⟨q, hq⟩ := List.getElem?_of_mem hg
    obtain ⟨r, p, -, -, rfl⟩ := hgr hq
    rw [quantities_eq hd]
    simp only [xg, flds_eq, List.map_map, Function.comp_def]
  · rintro x q n ⟨g, hg, hc⟩
    obtain ⟨r, p, hh, rfl, rfl⟩ := hgr hg
    rw [covers_iff hh] at hc
    have hI := (Props.C25_idx3_owner i.G.D hi.valid r p hh).1
    refine ⟨fun d => i.G.D.idx3 r p d * i.G.ldims d + n (rev d), fun d => ⟨?_, ?_, (hc d).2.2.1, (hc d).2.2.2⟩⟩
    · have := (hc d).1
      positivity
    · have h1 : (i.G.D.idx3 r p d : ℤ) + 1 ≤ i.G.D.np d := by have := hI d; omega
      have h2 : ((i.G.D.idx3 r p d : ℤ) + 1) * i.G.ldims d ≤ i.G.D.np d * i.G.ldims d :=
        mul_le_mul_of_nonneg_right h1 (by omega)
      have := (hc d).2.1
      unfold Dom.gdims
      push_cast
      linarith
  · intro k f name m hk F hF x g hg
    obtain ⟨r, p, hh, j, hj, e⟩ := cell_owner hi.valid hi.ldims (fun d => ⟨(hg d).1, (hg d).2.1⟩)
    refine ⟨gpatch_off_all i.G.D.counts r + p, fun d => j (rev d), ⟨_, hgo hh, ?_⟩, ?_, ?_⟩
    · rw [covers_iff hh]
      intro d
      simp only [rev_rev, ← e]
      exact ⟨by omega, by exact_mod_cast hj d, (hg d).2.2.1, (hg d).2.2.2⟩
    · rintro q' n' ⟨g', hg', hc'⟩
      obtain ⟨r', p', hh', rfl, rfl⟩ := hgr hg'
      rw [covers_iff hh'] at hc'
      have hcell : ∀ d, (i.G.D.idx3 r' p' d * i.G.ldims d + n' (rev d) : ℤ) = i.G.D.idx3 r p d * i.G.ldims d + j d := by
        intro d
        rw [← e]
        exact cell_unique (h_pos hi hS d) (hc' d).2.2.1 (hc' d).2.2.2 (hg d).2.2.1 (hg d).2.2.2
      obtain ⟨rfl, rfl, en⟩ := owner_unique hi.valid hi.ldims hh' hh (n := fun d => n' (rev d)) (n' := fun d => j d)
        (fun d => ⟨(hc' d).1, (hc' d).2.1⟩) (fun d => ⟨by omega, by exact_mod_cast hj d⟩) hcell
      refine ⟨rfl, funext fun d => ?_⟩
      have := congrFun en (rev d)
      simpa only [rev_rev] using this
    · rw [quantities_eq hd, List.getElem?_map, Option.map_eq_some_iff] at hk
      obtain ⟨⟨d, c⟩, hk, hdc⟩ := hk
      have hmem := List.mem_of_getElem? hk
      unfold withPaths at hmem
      obtain ⟨d', hd', hc⟩ := List.mem_flatMap.1 hmem
      obtain ⟨c', hc', hcc⟩ := List.mem_map.1 hc
      obtain ⟨rfl, rfl⟩ := Prod.mk.inj hcc
      obtain ⟨rfl, h2⟩ := Prod.mk.inj hdc
      obtain ⟨rfl, rfl⟩ := Prod.mk.inj h2
      have hr : r < S.size := by rw [← hi.size]; exact hh.1
      have hR := hM.rank r hr
      obtain ⟨ds, hds, hdat⟩ := hR.data d' hd' c' hc' p (by rw [Balance.nr_patches_eq]; exact hh.2)
      refine ⟨_, ⟨c'.1, ![(i.G.ldims 2 : ℤ), i.G.ldims 1, i.G.ldims 0], h5Name S.base i.step r, [d'.2, c'.1, pname p, ['3', 'd']]⟩,
        (s r).file, ds, hgo hh, ?_, rfl, hf r hr, get_of_mem hR.keys hds, hdat.1, ?_, ?_⟩
      · rw [pinfo_of hh, flds_eq]
        simp only [xg, List.map_map, List.getElem?_map, hk, Option.map_some]
        rfl
      · intro d
        rw [hdat.1]
        have h0 := hj 0
        have h1 := hj 1
        have h2 := hj 2
        fin_cases d
        · exact ⟨Int.natCast_nonneg _, show (j 2 : ℤ) < i.G.ldims 2 by omega⟩
        · exact ⟨Int.natCast_nonneg _, show (j 1 : ℤ) < i.G.ldims 1 by omega⟩
        · exact ⟨Int.natCast_nonneg _, show (j 0 : ℤ) < i.G.ldims 0 by omega⟩
      · rw [hdat.2 j hj, hF r p hh _ j hj]
        congr 1
        funext d
        exact (e d).symm

/-- any field is a part of something -/
theorem exists_parts {G : Dom K} (hv : G.D.Valid) (hL : ∀ d, 0 < G.ldims d) (f : FldIn α) [Inhabited α] :
    ∃ F, G.Parts f F := by
  classical
  refine ⟨fun m g => if h : ∃ r p, G.D.Has r p ∧ ∃ j : Fin 3 → ℕ, (∀ d, j d < G.ldims d) ∧ ∀ d, g d = G.D.idx3 r p d * G.ldims d + j d
    then f.val h.choose h.choose_spec.choose m h.choose_spec.choose_spec.2.choose else default, ?_⟩
  intro r p hh m j hj
  have h : ∃ r' p', G.D.Has r' p' ∧ ∃ j' : Fin 3 → ℕ, (∀ d, j' d < G.ldims d) ∧
      ∀ d, (G.D.idx3 r p d * G.ldims d + j d : ℤ) = G.D.idx3 r' p' d * G.ldims d + j' d := ⟨r, p, hh, j, hj, fun _ => rfl⟩
  beta_reduce
  rw [dif_pos h]
  have h1 := h.choose_spec.choose_spec.1
  have h2 := h.choose_spec.choose_spec.2.choose_spec
  obtain ⟨e1, e2, e3⟩ := owner_unique hv hL hh h1 (n := fun d => j d) (n' := fun d => h.choose_spec.choose_spec.2.choose d)
    (fun d => ⟨by omega, by exact_mod_cast hj d⟩) (fun d => ⟨by omega, by exact_mod_cast h2.1 d⟩) h2.2
  have e4 : h.choose_spec.choose_spec.2.choose = j := funext fun d => by
    have := congrFun e3 d
    exact_mod_cast this.symm
  rw [e4, ← e2, ← e1]

omit [LinearOrder K] [IsStrictOrderedRing K] in
/-- a program that ends while it writes fields -/
theorem run_none {S : Setup} {i : StepIn K α} (files : Str → Option (File K α))
    (h : ((beginStep (K := K) S i.alloc i.live).bind fun s => i.flds.foldlM (fun s f => writeFld S i.alloc i.G f s) s).isNone = true) :
    run S [i] files = none := by
  unfold run
  rw [series_short]
  have e : writeStep S i ⟨files, []⟩ = none := by
    unfold writeStep
    simp only [Option.bind_eq_bind]
    rw [← Option.bind_assoc, Option.isNone_iff_eq_none.1 h]
    rfl
  show (Option.bind (Option.map Prod.fst (writeStep S i ⟨files, []⟩)) _) = _
  rw [e]
  rfl

end Psc.Xdmf
