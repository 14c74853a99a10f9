import Verif.Lemmas.CudaPrtsSort

/-!
# Block numbers of all particles, the push kernel, and particles by patch
-/

namespace Psc.CudaPrts

open Psc.Cuda
open Psc.A2 (Prt)

section
variable {α : Type}

/-- the keys `p * m` up to `p * m + m`, key by key -/
theorem group_perm (Z : List (ℕ × α)) (p m : ℕ) :
    (flat (fun r => Z.filter fun a => a.1 = p * m + r) m).Perm (Z.filter fun a => p * m ≤ a.1 ∧ a.1 < p * m + m) := by
  generalize p * m = o
  induction m with
  | zero =>
    rw [flat_zero, List.filter_eq_nil_iff.2 (by intro a _; simp)]
  | succ m ih =>
    rw [flat_succ]
    refine (ih.append_right _).trans ?_
    clear ih
    induction Z with
    | nil => exact List.Perm.refl _
    | cons a Z ih =>
      rcases lt_trichotomy a.1 (o + m) with h | h | h
      · rw [List.filter_cons_of_neg (p := fun a : ℕ × α => decide (a.1 = o + m)) (by simp; omega)]
        by_cases h' : o ≤ a.1
        · rw [List.filter_cons_of_pos (by simp; omega), List.filter_cons_of_pos (by simp; omega), List.cons_append]
          exact ih.cons a
        · rw [List.filter_cons_of_neg (by simp; omega), List.filter_cons_of_neg (by simp; omega)]
          exact ih
      · rw [List.filter_cons_of_neg (p := fun a : ℕ × α => decide (o ≤ a.1 ∧ a.1 < o + m)) (by simp; omega),
          List.filter_cons_of_pos (by simp; omega), List.filter_cons_of_pos (by simp; omega)]
        exact List.perm_middle.trans (ih.cons a)
      · rw [List.filter_cons_of_neg (p := fun a : ℕ × α => decide (a.1 = o + m)) (by simp; omega),
          List.filter_cons_of_neg (by simp; omega), List.filter_cons_of_neg (by simp; omega)]
        exact ih

theorem flat_filter (B : ℕ → List α) (N : ℕ) (q : α → Bool) : (flat B N).filter q = flat (fun r => (B r).filter q) N := by
  simp [flat, List.filter_flatMap]

/-- only bucket `p` has elements -/
theorem flat_single {B : ℕ → List α} {N p : ℕ} (hp : p < N) (h : ∀ r < N, r ≠ p → B r = []) : flat B N = B p := by
  induction N with
  | zero => omega
  | succ N ih =>
    rw [flat_succ]
    by_cases hN : N = p
    · subst hN
      have : flat B N = [] := by
        rw [flat, List.flatMap_eq_nil_iff]
        intro r hr
        have := List.mem_range.1 hr
        exact h r (by omega) (by omega)
      rw [this, List.nil_append]
    · rw [ih (by omega) fun r hr h' => h r (by omega) h', h N (by omega) hN, List.append_nil]

theorem flat_zip {β : Type} (B : ℕ → List α) (f : ℕ → α → β) (N : ℕ) :
    (flat (fun r => (B r).map (f r)) N).zip (flat B N) = flat (fun r => (B r).map fun q => (f r q, q)) N := by
  induction N with
  | zero => rfl
  | succ N ih =>
    rw [flat_succ, flat_succ, flat_succ, List.zip_append (by rw [flat_length, flat_length]; exact pre_congr (by simp)), ih]
    congr 1
    rw [List.zip_map_left]
    induction B N with
    | nil => rfl
    | cons a l ih => simp only [List.zip_cons_cons, List.map_cons, ih]; rfl

theorem flat_append_perm (B C : ℕ → List α) (N : ℕ) : (flat B N ++ flat C N).Perm (flat (fun r => B r ++ C r) N) := by
  induction N with
  | zero => exact List.Perm.refl _
  | succ N ih =>
    rw [flat_succ, flat_succ, flat_succ]
    refine List.Perm.trans ?_ (ih.append_right _)
    have : (flat B N ++ B N ++ (flat C N ++ C N)).Perm (flat B N ++ flat C N ++ (B N ++ C N)) := by
      simp only [List.append_assoc]
      refine List.Perm.append_left _ ?_
      rw [← List.append_assoc, ← List.append_assoc]
      exact List.perm_append_comm.append_right _
    exact this

end

variable {K : Type} [Field K] [LinearOrder K] [IsStrictOrderedRing K] [FloorRing K]

/-! ## find_indices_ids -/

theorem findIndices_spec {e : Env K} (hg : e.g.Ok) {s : State K} {C : ℕ → List (Sto K)} (h1 : s.storage = flat C e.g.nPatches)
    (h2 : s.n = pre C e.g.nPatches) (h3 : ∀ p ≤ e.g.nPatches, s.off[p * e.g.bpp]? = some (pre C p))
    (h4 : ∀ p < e.g.nPatches, ∀ q ∈ C p, InPatch e q.x) :
    findIndices e s = some { s with
      idx := flat (fun p => (C p).map fun q => code e p q.x) e.g.nPatches, id := List.range s.n } := by
  set D : ℕ → List ℕ := fun p => (C p).map fun q => code e p q.x with hD
  have hDp : ∀ p, pre D p = pre C p := fun p => pre_congr (by simp [hD])
  have hn : s.n = (flat D e.g.nPatches).length := by rw [flat_length, hDp, h2]
  let f : ℕ → ℕ := fun i => ((flat D e.g.nPatches)[i]?).getD 0
  have hw : ((List.range e.g.nPatches).mapM fun p => do
      let r ← patchRange e s.off p
      (List.range' r.1 r.2).mapM (findOne e s.storage p)) =
      some ((List.range e.g.nPatches).map fun p => (List.range' (pre C p) ((C p).length)).map fun i => (i, f i)) := by
    refine mapM_some fun p hp => ?_
    have hp := List.mem_range.1 hp
    unfold patchRange
    rw [h3 p (by omega), h3 (p + 1) (by omega)]
    simp only [Option.bind_eq_bind, Option.bind_some]
    rw [pre_succ, Nat.add_sub_cancel_left]
    refine mapM_some fun i hi => ?_
    rw [List.mem_range'_1] at hi
    obtain ⟨k, rfl⟩ : ∃ k, i = pre C p + k := ⟨i - pre C p, by omega⟩
    have hk : k < (C p).length := by omega
    have e1 := flat_get C hp hk
    have e2 := flat_get D (r := p) (k := k) hp (by simpa [hD] using hk)
    rw [hDp] at e2
    have hq := h4 p hp ((C p)[k]) (List.getElem_mem hk)
    obtain ⟨r, r1, _⟩ := blockIndex_some hg hq p
    unfold findOne
    rw [h1, e1, List.getElem?_eq_getElem hk]
    simp only [Option.bind_eq_bind, Option.bind_some, r1, f, e2]
    simp [hD, code_in hq r1, List.getElem?_eq_getElem hk]
  have hfl : ((List.range e.g.nPatches).map fun p => (List.range' (pre C p) ((C p).length)).map fun i => (i, f i)).flatten =
      (List.range s.n).map fun i => (i, f i) := by
    rw [h2]
    clear h2 hn
    generalize e.g.nPatches = N
    induction N with
    | zero => rfl
    | succ N ih =>
      rw [List.range_succ, List.map_append, List.flatten_append, ih, pre_succ, List.range_eq_range', List.range_eq_range',
        ← List.range'_append_1, List.map_append]
      simp
  have hi : write (resize 0 s.n s.idx) ((List.range s.n).map fun i => (i, f i)) = some (flat D e.g.nPatches) := by
    rw [write_all f]
    · rw [resize_length]
      congr 1
      apply List.ext_getElem?
      intro i
      by_cases hi : i < s.n
      · rw [List.getElem?_map, List.getElem?_range hi]
        show some (((flat D e.g.nPatches)[i]?).getD 0) = _
        rw [List.getElem?_eq_getElem (by omega)]
        rfl
      · rw [List.getElem?_eq_none (by simp; omega), List.getElem?_eq_none (by omega)]
    · intro w hw
      obtain ⟨i, hi, rfl⟩ := List.mem_map.1 hw
      rw [resize_length]
      exact ⟨List.mem_range.1 hi, rfl⟩
    · intro i hi
      rw [resize_length] at hi
      rw [List.map_map]
      exact List.mem_map.2 ⟨i, List.mem_range.2 hi, rfl⟩
  have hd : write (resize 0 s.n s.id) (((List.range s.n).map fun i => (i, f i)).map fun w => (w.1, w.1)) =
      some (List.range s.n) := by
    rw [write_all fun i => i]
    · rw [resize_length, List.map_id']
    · intro w hw
      rw [List.map_map] at hw
      obtain ⟨i, hi, rfl⟩ := List.mem_map.1 hw
      rw [resize_length]
      exact ⟨List.mem_range.1 hi, rfl⟩
    · intro i hi
      rw [resize_length] at hi
      rw [List.map_map, List.map_map]
      exact List.mem_map.2 ⟨i, List.mem_range.2 hi, rfl⟩
  unfold findIndices
  simp only [Option.bind_eq_bind]
  rw [show (List.mapM (fun p => (patchRange e s.off p).bind fun r => List.mapM (findOne e s.storage p) (List.range' r.1 r.2))
    (List.range e.g.nPatches)) = some _ from hw]
  simp only [Option.bind_some]
  rw [hfl, hi]
  simp only [Option.bind_some]
  rw [hd]
  rfl

/-! ## the push kernel -/

/-- particles in order: each element of the storage is read and written by one thread -/
theorem push_fold {e : Env K} {kmv : Block → Sto K → Sto K} {f : ℕ → Sto K} {k : ℕ → ℕ} :
    ∀ (work : List (Block × ℕ)) (s : State K), (work.map Prod.snd).Nodup → s.idx.length = s.storage.length →
      (∀ w ∈ work, w.2 < s.storage.length ∧ ((s.storage[w.2]?).map (kmv w.1) = some (f w.2)) ∧
        movedTo e (f w.2).x w.1.p = some (k w.2)) →
      ∃ st idx, work.foldlM (pushOne e kmv) s = some { s with storage := st, idx := idx } ∧
        st.length = s.storage.length ∧ idx.length = s.storage.length ∧
        ∀ i : ℕ, i < s.storage.length →
          st[i]? = (if i ∈ work.map Prod.snd then some (f i) else s.storage[i]?) ∧
          idx[i]? = (if i ∈ work.map Prod.snd then some (k i) else s.idx[i]?) := by
  intro work
  induction work with
  | nil => intro s _ hl _; exact ⟨s.storage, s.idx, rfl, rfl, hl, fun i _ => by simp⟩
  | cons w work ih =>
    intro s hn hl h
    obtain ⟨w1, w2, w3⟩ := h w List.mem_cons_self
    rw [List.map_cons, List.nodup_cons] at hn
    have hs : pushOne e kmv s w = some { s with storage := s.storage.set w.2 (f w.2), idx := s.idx.set w.2 (k w.2) } := by
      rw [List.getElem?_eq_getElem w1, Option.map_some, Option.some.injEq] at w2
      unfold pushOne
      rw [List.getElem?_eq_getElem w1]
      simp only [Option.bind_eq_bind, Option.bind_some]
      rw [w2, w3]
      simp [write, w1, hl]
    obtain ⟨st, idx, e1, e2, e3, e4⟩ := ih { s with storage := s.storage.set w.2 (f w.2), idx := s.idx.set w.2 (k w.2) }
      hn.2 (by simp [hl]) (by
        intro v hv
        obtain ⟨v1, v2, v3⟩ := h v (List.mem_cons_of_mem _ hv)
        refine ⟨by simpa using v1, ?_, v3⟩
        have : w.2 ≠ v.2 := fun hc => hn.1 (hc ▸ List.mem_map.2 ⟨v, hv, rfl⟩)
        show ((s.storage.set w.2 (f w.2))[v.2]?).map (kmv v.1) = _
        rw [List.getElem?_set_ne this]
        exact v2)
    simp only [List.length_set] at e2 e3 e4
    refine ⟨st, idx, ?_, e2, e3, ?_⟩
    · rw [List.foldlM_cons, hs]
      exact e1
    · intro i hi
      obtain ⟨f1, f2⟩ := e4 i hi
      rw [f1, f2]
      simp only [List.map_cons, List.mem_cons]
      by_cases hm : i ∈ work.map Prod.snd
      · simp [hm]
      · by_cases hw : i = w.2
        · subst hw
          simp [hm, w1, hl]
        · simp [hm, hw, List.getElem?_set_ne (Ne.symm hw)]

/-- particles not in order: they are read from one storage and written to the other -/
theorem push_fold_reorder {e : Env K} {kmv : Block → Sto K → Sto K} {f : ℕ → Sto K} {k : ℕ → ℕ} :
    ∀ (work : List (Block × ℕ)) (s : State K), s.idx.length = s.alt.length →
      (∀ w ∈ work, w.2 < s.alt.length ∧ (((s.id[w.2]?).bind fun j => s.storage[j]?).map (kmv w.1) = some (f w.2)) ∧
        movedTo e (f w.2).x w.1.p = some (k w.2)) →
      ∃ st idx, work.foldlM (pushOneReorder e kmv) s = some { s with alt := st, idx := idx } ∧
        st.length = s.alt.length ∧ idx.length = s.alt.length ∧
        ∀ i : ℕ, i < s.alt.length →
          st[i]? = (if i ∈ work.map Prod.snd then some (f i) else s.alt[i]?) ∧
          idx[i]? = (if i ∈ work.map Prod.snd then some (k i) else s.idx[i]?) := by
  intro work
  induction work with
  | nil => intro s hl _; exact ⟨s.alt, s.idx, rfl, rfl, hl, fun i _ => by simp⟩
  | cons w work ih =>
    intro s hl h
    obtain ⟨w1, w2, w3⟩ := h w List.mem_cons_self
    have hs : pushOneReorder e kmv s w = some { s with alt := s.alt.set w.2 (f w.2), idx := s.idx.set w.2 (k w.2) } := by
      obtain ⟨q, q1, q2⟩ := Option.map_eq_some_iff.1 w2
      obtain ⟨j, j1, j2⟩ := Option.bind_eq_some_iff.1 q1
      unfold pushOneReorder
      rw [j1]
      simp only [Option.bind_eq_bind, Option.bind_some]
      rw [j2]
      simp only [Option.bind_some]
      rw [q2, w3]
      simp [write, w1, hl]
    obtain ⟨st, idx, e1, e2, e3, e4⟩ := ih { s with alt := s.alt.set w.2 (f w.2), idx := s.idx.set w.2 (k w.2) }
      (by simp [hl]) (by
        intro v hv
        obtain ⟨v1, v2, v3⟩ := h v (List.mem_cons_of_mem _ hv)
        exact ⟨by simpa using v1, v2, v3⟩)
    simp only [List.length_set] at e2 e3 e4
    refine ⟨st, idx, ?_, e2, e3, ?_⟩
    · rw [List.foldlM_cons, hs]
      exact e1
    · intro i hi
      obtain ⟨f1, f2⟩ := e4 i hi
      rw [f1, f2]
      simp only [List.map_cons, List.mem_cons]
      by_cases hm : i ∈ work.map Prod.snd
      · simp [hm]
      · by_cases hw : i = w.2
        · subst hw
          simp [hm, w1, hl]
        · simp [hm, hw, List.getElem?_set_ne (Ne.symm hw)]

/-! ## the work of the push kernel -/

/-- the offsets in `d_off` -/
theorem work_exists {e : Env K} {s : State K} {B : ℕ → List (Sto K)}
    (ho : s.off = (List.range (e.g.nBlocks + 1)).map (pre B)) :
    ∃ w, kernelWork s.off 512 (launches e) = some w ∧ w.Perm (allParticles e.g (pre B)) := by
  have hO : Offsets e.g s.off (pre B) := ho
  unfold launches
  split_ifs with h
  · exact kernelWork_perm hO (by omega) (qYz_perm e.g (by simp [Ix.bMx, h]))
  · exact kernelWork_perm hO (by omega) (simple_perm e.g)

/-- the pairs handled: those of the blocks one after the other -/
theorem work_perm {e : Env K} {s : State K} {B : ℕ → List (Sto K)}
    (ho : s.off = (List.range (e.g.nBlocks + 1)).map (pre B)) {work : List (Block × ℕ)} (hw : IsWork e s work) :
    work.Perm (flat (fun r => (List.range' (pre B r) (B r).length).map fun n => (blockAt e.g r, n)) e.g.nBlocks) := by
  obtain ⟨w, h1, h2⟩ := hw
  obtain ⟨w', h3, h4⟩ := work_exists ho
  rw [h1, Option.some.injEq] at h3
  subst h3
  refine h2.trans (h4.trans ?_)
  unfold allParticles
  refine (List.Perm.flatMap_right _ (allBlocks_perm e.g)).trans ?_
  rw [List.flatMap_map]
  refine List.Perm.of_eq ?_
  unfold flat
  refine List.flatMap_congr fun r _ => ?_
  rw [blockAt_bid, pre_succ, Nat.add_sub_cancel_left]

theorem flat_range' (B : ℕ → List (Sto K)) (N : ℕ) :
    flat (fun r => List.range' (pre B r) (B r).length) N = List.range (pre B N) := by
  induction N with
  | zero => rfl
  | succ N ih => rw [flat_succ, ih, pre_succ, List.range_eq_range', List.range_eq_range', ← List.range'_append_1]; simp

theorem work_snd {e : Env K} {s : State K} {B : ℕ → List (Sto K)}
    (ho : s.off = (List.range (e.g.nBlocks + 1)).map (pre B)) {work : List (Block × ℕ)} (hw : IsWork e s work) :
    (work.map Prod.snd).Perm (List.range (pre B e.g.nBlocks)) := by
  refine ((work_perm ho hw).map _).trans (List.Perm.of_eq ?_)
  rw [flat_map, ← flat_range']
  refine flat_congr fun r _ => ?_
  rw [List.map_map]
  exact List.map_id' _

theorem work_mem {e : Env K} {s : State K} {B : ℕ → List (Sto K)}
    (ho : s.off = (List.range (e.g.nBlocks + 1)).map (pre B)) {work : List (Block × ℕ)} (hw : IsWork e s work)
    {w : Block × ℕ} (h : w ∈ work) :
    ∃ r k, r < e.g.nBlocks ∧ k < (B r).length ∧ w = (blockAt e.g r, pre B r + k) := by
  obtain ⟨r, hr, h⟩ := mem_flat.1 ((work_perm ho hw).mem_iff.1 h)
  obtain ⟨n, hn, rfl⟩ := List.mem_map.1 h
  rw [List.mem_range'_1] at hn
  exact ⟨r, n - pre B r, hr, by omega, by rw [show pre B r + (n - pre B r) = n by omega]⟩

end Psc.CudaPrts
