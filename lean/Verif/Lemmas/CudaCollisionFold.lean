import Verif.Lemmas.CudaCollision

/-!
# Lemmas for collisions on the GPU: keys, and the pairs one after the other
-/

namespace Psc.CudaPrts

open Psc.Cuda

variable {K : Type} [Field K] [LinearOrder K] [IsStrictOrderedRing K] [FloorRing K]

/-! ## cell numbers -/

/-- the number of cell `c` of patch `p` -/
def cellNo (e : Env K) (p : ℕ) (c : I3) : ℕ := blockNo e.g.ldims p (c 0).toNat (c 1).toNat (c 2).toNat

theorem cellIndex_some {e : Env K} {x : R3 K} (h : InPatch e x) (p : ℕ) : cellIndex e x p = some (cellNo e p (cell e x)) := by
  rw [inPatch_iff] at h
  exact if_pos h

theorem cellNo_lt {e : Env K} {c : I3} (h : ∀ d, 0 ≤ c d ∧ c d < e.g.ldims d) {p : ℕ} (hp : p < e.g.nPatches) :
    cellNo e p c < nCells e := by
  have := blockNo_lt e.g.ldims (np := e.g.nPatches) hp (x := (c 0).toNat) (y := (c 1).toNat) (z := (c 2).toNat)
    (by have := h 0; omega) (by have := h 1; omega) (by have := h 2; omega)
  unfold nCells
  rw [Nat.mul_comm]
  exact this

theorem cellNo_inj {e : Env K} {c c' : I3} (h : ∀ d, 0 ≤ c d ∧ c d < e.g.ldims d) (h' : ∀ d, 0 ≤ c' d ∧ c' d < e.g.ldims d)
    {p p' : ℕ} (heq : cellNo e p c = cellNo e p' c') : p = p' ∧ c = c' := by
  have h1 := posOf_blockNo e.g.ldims (p := p) (x := (c 0).toNat) (y := (c 1).toNat) (z := (c 2).toNat)
    (by have := h 0; omega) (by have := h 1; omega) (by have := h 2; omega)
  have h2 := posOf_blockNo e.g.ldims (p := p') (x := (c' 0).toNat) (y := (c' 1).toNat) (z := (c' 2).toNat)
    (by have := h' 0; omega) (by have := h' 1; omega) (by have := h' 2; omega)
  have h3 : posOf e.g.ldims (cellNo e p c) = posOf e.g.ldims (cellNo e p' c') := by rw [heq]
  unfold cellNo at h3
  rw [h1, h2] at h3
  simp only [Prod.mk.injEq] at h3
  refine ⟨h3.1, ?_⟩
  funext d
  have a0 := h 0; have a1 := h 1; have a2 := h 2
  have b0 := h' 0; have b1 := h' 1; have b2 := h' 2
  fin_cases d
  · show c 0 = c' 0; omega
  · show c 1 = c' 1; omega
  · show c 2 = c' 2; omega

theorem cellNo_patch {e : Env K} {c : I3} (h : ∀ d, 0 ≤ c d ∧ c d < e.g.ldims d) (p : ℕ) :
    cellNo e p c / (e.g.ldims 0 * e.g.ldims 1 * e.g.ldims 2) = p := by
  have h1 := posOf_blockNo e.g.ldims (p := p) (x := (c 0).toNat) (y := (c 1).toNat) (z := (c 2).toNat)
    (by have := h 0; omega) (by have := h 1; omega) (by have := h 2; omega)
  have h2 := congrArg Prod.fst h1
  simp only [posOf] at h2
  rw [Nat.div_div_eq_div_mul, Nat.div_div_eq_div_mul, ← Nat.mul_assoc] at h2
  exact h2

theorem blockAt_p (g : Ix) (r : ℕ) : (blockAt g r).p = r / g.bpp := by
  show r / g.bMx 0 / g.bMx 1 / g.bMx 2 = _
  rw [Nat.div_div_eq_div_mul, Nat.div_div_eq_div_mul, ← Nat.mul_assoc]
  rfl

/-! ## keys -/

/-- the cell number of particle `i` -/
noncomputable def cellOf (e : Env K) (B : ℕ → List (Sto K)) (i : ℕ) : ℕ :=
  (flat (fun r => (B r).map fun q => cellNo e (r / e.g.bpp) (cell e q.x)) e.g.nBlocks).getD i 0

theorem cellOf_get {e : Env K} {B : ℕ → List (Sto K)} {r k : ℕ} (hr : r < e.g.nBlocks) (hk : k < (B r).length) :
    cellOf e B (pre B r + k) = cellNo e (r / e.g.bpp) (cell e ((B r)[k]).x) := by
  unfold cellOf
  have h1 : pre B r = pre (fun r => (B r).map fun q => cellNo e (r / e.g.bpp) (cell e q.x)) r := pre_congr (by simp)
  rw [List.getD_eq_getElem?_getD, h1, flat_get _ hr (by simpa using hk), List.getElem?_map, List.getElem?_eq_getElem hk]
  rfl

theorem sortWork_exists {e : Env K} {s : State K} {B : ℕ → List (Sto K)}
    (ho : s.off = (List.range (e.g.nBlocks + 1)).map (pre B)) :
    ∃ w, kernelWork s.off 128 (sortLaunches e) = some w ∧ w.Perm (allParticles e.g (pre B)) := by
  have hO : Offsets e.g s.off (pre B) := ho
  unfold sortLaunches
  split_ifs with h
  · exact kernelWork_perm hO (by omega) (simple2Yz_perm e.g (by simp [Ix.bMx, h]))
  · exact kernelWork_perm hO (by omega) (simple2_perm e.g)

theorem sortWork_perm {e : Env K} {s : State K} {B : ℕ → List (Sto K)}
    (ho : s.off = (List.range (e.g.nBlocks + 1)).map (pre B)) {work : List (Block × ℕ)} (hw : IsSortWork e s work) :
    work.Perm (flat (fun r => (List.range' (pre B r) (B r).length).map fun n => (blockAt e.g r, n)) e.g.nBlocks) := by
  obtain ⟨w, h1, h2⟩ := hw
  obtain ⟨w', h3, h4⟩ := sortWork_exists ho
  rw [h1, Option.some.injEq] at h3
  subst h3
  refine h2.trans (h4.trans ?_)
  unfold allParticles
  refine (List.Perm.flatMap_right _ (allBlocks_perm e.g)).trans ?_
  rw [List.flatMap_map]
  refine List.Perm.of_eq ?_
  unfold flat
  refine List.flatMap_congr fun r _ => ?_
  rw [blockAt_bid, pre_succ, Nat.add_sub_cancel_left]

theorem randomIndices_spec {e : Env K} {s : State K} {B : ℕ → List (Sto K)}
    (ho : s.off = (List.range (e.g.nBlocks + 1)).map (pre B)) (hn : s.n = pre B e.g.nBlocks)
    (hst : s.storage = flat B e.g.nBlocks) (hin : ∀ r < e.g.nBlocks, ∀ q ∈ B r, InPatch e q.x) (u : ℕ → K)
    {work : List (Block × ℕ)} (hw : IsSortWork e s work) :
    randomIndices e s u work = some ((List.range s.n).map fun i => (cellOf e B i : K) + 1 / 2 * u i, List.range s.n) := by
  have hp := sortWork_perm ho hw
  have hmem : ∀ w ∈ work, ∃ r k, r < e.g.nBlocks ∧ k < (B r).length ∧ w = (blockAt e.g r, pre B r + k) := by
    intro w h
    obtain ⟨r, hr, h⟩ := mem_flat.1 (hp.mem_iff.1 h)
    obtain ⟨n, hn, rfl⟩ := List.mem_map.1 h
    rw [List.mem_range'_1] at hn
    exact ⟨r, n - pre B r, hr, by omega, by rw [show pre B r + (n - pre B r) = n by omega]⟩
  have hsnd : (work.map Prod.snd).Perm (List.range (pre B e.g.nBlocks)) := by
    refine (hp.map _).trans (List.Perm.of_eq ?_)
    rw [flat_map, ← flat_range']
    refine flat_congr fun r _ => ?_
    rw [List.map_map]
    exact List.map_id' _
  have h1 : ∀ w ∈ work, randomKey e s.storage u w = some (w.2, (cellOf e B w.2 : K) + 1 / 2 * u w.2) := by
    intro w h
    obtain ⟨r, k, hr, hk, rfl⟩ := hmem w h
    unfold randomKey
    simp only
    rw [hst, flat_get B hr hk, List.getElem?_eq_getElem hk]
    simp only [Option.bind_eq_bind, Option.bind_some]
    rw [cellIndex_some (hin r hr _ (List.getElem_mem hk)), blockAt_p, cellOf_get hr hk]
    rfl
  have hlt : ∀ w ∈ work, w.2 < s.n := by
    intro w h
    rw [hn]
    exact List.mem_range.1 (hsnd.mem_iff.1 (List.mem_map_of_mem h))
  have hcov : ∀ i < s.n, ∃ w ∈ work, w.2 = i := by
    intro i hi
    rw [hn] at hi
    exact List.mem_map.1 (hsnd.mem_iff.2 (List.mem_range.2 hi))
  unfold randomIndices
  rw [mapM_some h1]
  simp only [Option.bind_eq_bind, Option.bind_some]
  rw [write_all (fun i => (cellOf e B i : K) + 1 / 2 * u i), write_all (fun i => i)]
  · simp
  · intro w h
    obtain ⟨a, ha, rfl⟩ := List.mem_map.1 h
    obtain ⟨b, hb, rfl⟩ := List.mem_map.1 ha
    exact ⟨by simpa using hlt b hb, rfl⟩
  · intro i hi
    obtain ⟨w, h, rfl⟩ := hcov i (by simpa using hi)
    rw [List.map_map, List.map_map]
    exact List.mem_map.2 ⟨w, h, rfl⟩
  · intro w h
    obtain ⟨b, hb, rfl⟩ := List.mem_map.1 h
    exact ⟨by simpa using hlt b hb, rfl⟩
  · intro i hi
    obtain ⟨w, h, rfl⟩ := hcov i (by simpa using hi)
    rw [List.map_map]
    exact List.mem_map.2 ⟨w, h, rfl⟩

/-! ## pairs -/

/-- the momenta of the pair at position `n` of a cell of `m` particles -/
def pairMom (bc : K → ℕ → Sto K → Sto K → R3 K × R3 K) (ν : K) (S : ℕ → Sto K) (id : List ℕ) (m n : ℕ) : R3 K × R3 K :=
  bc (rate ν m) n (S (id.getD n 0)) (S (id.getD (n + 1) 0))

theorem collide_fold {e : Env K} {bc : K → ℕ → Sto K → Sto K → R3 K × R3 K} {ν : K} {off : List ℕ} {S : ℕ → Sto K}
    {C : ℕ → List ℕ} {N : ℕ} (ho : ∀ c ≤ N, off[c]? = some (pre C c)) (hnd : (flat C N).Nodup)
    (hcell : ∀ c < N, ∀ i ∈ C c, cellIndex e (S i).x (c / (e.g.ldims 0 * e.g.ldims 1 * e.g.ldims 2)) = some c) :
    ∀ (D : List (ℕ × ℕ)), D.Nodup →
      (∀ w ∈ D, ∃ c k, c < N ∧ k < (C c).length / 2 ∧ w = (c, pre C c + 2 * k)) → ∀ st : List (Sto K),
      (∀ w ∈ D, st[(flat C N).getD w.2 0]? = some (S ((flat C N).getD w.2 0)) ∧
        st[(flat C N).getD (w.2 + 1) 0]? = some (S ((flat C N).getD (w.2 + 1) 0))) →
      ∃ st', D.foldlM (collidePair e bc ν off (flat C N)) st = some st' ∧ st'.length = st.length ∧
        (∀ i : ℕ, (∀ w ∈ D, i ≠ (flat C N).getD w.2 0 ∧ i ≠ (flat C N).getD (w.2 + 1) 0) → st'[i]? = st[i]?) ∧
        ∀ w ∈ D, st'[(flat C N).getD w.2 0]? =
            some { S ((flat C N).getD w.2 0) with u := (pairMom bc ν S (flat C N) (C w.1).length w.2).1 } ∧
          st'[(flat C N).getD (w.2 + 1) 0]? =
            some { S ((flat C N).getD (w.2 + 1) 0) with u := (pairMom bc ν S (flat C N) (C w.1).length w.2).2 } := by
  set id := flat C N with hid
  have hlen : id.length = pre C N := flat_length C N
  have hinj : ∀ n m : ℕ, n < id.length → m < id.length → id.getD n 0 = id.getD m 0 → n = m := by
    intro n m hn hm h
    rw [List.getD_eq_getElem _ _ hn, List.getD_eq_getElem _ _ hm] at h
    exact (List.Nodup.getElem_inj_iff hnd).1 h
  have hpos : ∀ c k : ℕ, c < N → k < (C c).length / 2 → pre C c + 2 * k + 1 < id.length ∧
      id.getD (pre C c + 2 * k) 0 ∈ C c ∧ id.getD (pre C c + 2 * k + 1) 0 ∈ C c := by
    intro c k hc hk
    have h1 := pre_mono C (show c + 1 ≤ N from hc)
    rw [pre_succ] at h1
    have hg : ∀ k', k' < (C c).length → id.getD (pre C c + k') 0 ∈ C c := by
      intro k' hk'
      rw [List.getD_eq_getElem?_getD, hid, flat_get C hc hk', List.getElem?_eq_getElem hk']
      exact List.getElem_mem hk'
    exact ⟨by omega, hg _ (by omega), by rw [Nat.add_assoc]; exact hg _ (by omega)⟩
  intro D
  induction D with
  | nil => intro _ _ st _; exact ⟨st, rfl, rfl, fun _ _ => rfl, fun w hw => absurd hw List.not_mem_nil⟩
  | cons w D ih =>
    intro hD hpairs st hst
    obtain ⟨c, k, hc, hk, rfl⟩ := hpairs w List.mem_cons_self
    obtain ⟨p1, p2, p3⟩ := hpos c k hc hk
    obtain ⟨s1, s2⟩ := hst _ List.mem_cons_self
    simp only at s1 s2
    set n := pre C c + 2 * k with hn
    set i := id.getD n 0 with hi
    set j := id.getD (n + 1) 0 with hj
    have hij : i ≠ j := by
      intro h
      have := hinj n (n + 1) (by omega) (by omega) h
      omega
    have hil : i < st.length := by
      by_contra hcon
      rw [List.getElem?_eq_none (by omega)] at s1
      simp at s1
    have hjl : j < st.length := by
      by_contra hcon
      rw [List.getElem?_eq_none (by omega)] at s2
      simp at s2
    set r := pairMom bc ν S id (C c).length n with hr
    have hone : collidePair e bc ν off id st (c, n) =
        some ((st.set i { S i with u := r.1 }).set j { S j with u := r.2 }) := by
      unfold collidePair
      simp only
      rw [ho c (by omega), ho (c + 1) (by omega)]
      simp only [Option.bind_eq_bind, Option.bind_some]
      have g1 : id[n]? = some i := by
        rw [hi, List.getD_eq_getElem _ _ (show n < id.length by omega)]
        exact List.getElem?_eq_getElem (by omega)
      have g2 : id[n + 1]? = some j := by
        rw [hj, List.getD_eq_getElem _ _ (show n + 1 < id.length by omega)]
        exact List.getElem?_eq_getElem (by omega)
      rw [g1, g2]
      simp only [Option.bind_some]
      rw [s1, s2]
      simp only [Option.bind_some]
      rw [hcell c hc i p2, hcell c hc j p3]
      simp only [Option.bind_some, if_true]
      rw [write_cons _ _ _ hil, write_cons _ _ _ (by simpa using hjl), write_nil, pre_succ, Nat.add_sub_cancel_left]
      rfl
    have hdis : ∀ v ∈ D, id.getD v.2 0 ≠ i ∧ id.getD v.2 0 ≠ j ∧ id.getD (v.2 + 1) 0 ≠ i ∧ id.getD (v.2 + 1) 0 ≠ j := by
      intro v hv
      obtain ⟨c', k', hc', hk', rfl⟩ := hpairs v (List.mem_cons_of_mem _ hv)
      obtain ⟨q1, _, _⟩ := hpos c' k' hc' hk'
      have hne : (c, n) ≠ (c', pre C c' + 2 * k') := by
        intro h
        rw [h] at hD
        exact (List.nodup_cons.1 hD).1 hv
      have hnn : n ≠ pre C c' + 2 * k' ∧ n ≠ pre C c' + 2 * k' + 1 ∧ n + 1 ≠ pre C c' + 2 * k' := by
        rcases Nat.lt_trichotomy c c' with h | h | h
        · have := pre_mono C (show c + 1 ≤ c' from h)
          rw [pre_succ] at this
          omega
        · subst h
          have : k ≠ k' := fun h => hne (by rw [hn, h])
          omega
        · have := pre_mono C (show c' + 1 ≤ c from h)
          rw [pre_succ] at this
          omega
      simp only
      refine ⟨fun h => ?_, fun h => ?_, fun h => ?_, fun h => ?_⟩
      · have := hinj _ _ (by omega) (by omega) h; omega
      · have := hinj _ _ (by omega) (by omega) h; omega
      · have := hinj _ _ (by omega) (by omega) h; omega
      · have := hinj _ _ (by omega) (by omega) h; omega
    have hset : ∀ l : ℕ, l ≠ i → l ≠ j →
        ((st.set i { S i with u := r.1 }).set j { S j with u := r.2 })[l]? = st[l]? := by
      intro l h1 h2
      rw [List.getElem?_set_ne (Ne.symm h2), List.getElem?_set_ne (Ne.symm h1)]
    obtain ⟨st', f1, f2, f3, f4⟩ := ih (List.nodup_cons.1 hD).2 (fun v hv => hpairs v (List.mem_cons_of_mem _ hv))
      ((st.set i { S i with u := r.1 }).set j { S j with u := r.2 }) fun v hv => by
        obtain ⟨d1, d2, d3, d4⟩ := hdis v hv
        rw [hset _ d1 d2, hset _ d3 d4]
        exact hst v (List.mem_cons_of_mem _ hv)
    have fi := f3 i fun v hv => ⟨(hdis v hv).1.symm, (hdis v hv).2.2.1.symm⟩
    have fj := f3 j fun v hv => ⟨(hdis v hv).2.1.symm, (hdis v hv).2.2.2.symm⟩
    refine ⟨st', ?_, by simpa using f2, ?_, ?_⟩
    · rw [List.foldlM_cons, hone]
      exact f1
    · intro l hl
      rw [f3 l fun v hv => hl v (List.mem_cons_of_mem _ hv)]
      have := hl _ List.mem_cons_self
      exact hset l this.1 this.2
    · intro v hv
      rcases List.mem_cons.1 hv with rfl | hv
      · simp only
        refine ⟨?_, ?_⟩
        · show st'[i]? = _
          rw [fi, List.getElem?_set_ne hij.symm, List.getElem?_set_self hil]
        · show st'[j]? = _
          rw [fj, List.getElem?_set_self (by simpa using hjl)]
      · exact f4 v hv

/-! ## a list by twos -/

theorem twos (l : List ℕ) : l.Perm (((List.range (l.length / 2)).map fun k => l.getD (2 * k) 0) ++
    ((List.range (l.length / 2)).map fun k => l.getD (2 * k + 1) 0) ++ l.drop (2 * (l.length / 2))) := by
  have key : ∀ m, 2 * m ≤ l.length → (l.take (2 * m)).Perm (((List.range m).map fun k => l.getD (2 * k) 0) ++
      ((List.range m).map fun k => l.getD (2 * k + 1) 0)) := by
    intro m
    induction m with
    | zero => intro _; simp
    | succ m ih =>
      intro hm
      rw [show 2 * (m + 1) = 2 * m + 1 + 1 by ring, List.take_add_one, List.take_add_one, List.range_succ, List.map_append,
        List.map_append, List.getElem?_eq_getElem (show 2 * m < l.length by omega),
        List.getElem?_eq_getElem (show 2 * m + 1 < l.length by omega)]
      simp only [Option.toList_some, List.map_cons, List.map_nil]
      rw [List.getD_eq_getElem _ _ (show 2 * m < l.length by omega), List.getD_eq_getElem _ _ (show 2 * m + 1 < l.length by omega)]
      have := ih (by omega)
      refine (((this.append_right _).append_right _)).trans ?_
      simp only [List.append_assoc]
      refine List.Perm.append_left _ ?_
      rw [← List.append_assoc, ← List.append_assoc]
      exact (List.perm_append_comm).append_right _
  have h := (key (l.length / 2) (by omega)).append_right (l.drop (2 * (l.length / 2)))
  rwa [List.take_append_drop] at h

end Psc.CudaPrts
