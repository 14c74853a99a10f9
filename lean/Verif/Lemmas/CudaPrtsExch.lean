import Verif.Lemmas.CudaPrtsPush

/-!
# Injecting and exchanging particles on the GPU
-/

namespace Psc.CudaPrts

open Psc.Cuda
open Psc.A2 (Prt)

variable {K : Type} [Field K] [LinearOrder K] [IsStrictOrderedRing K] [FloorRing K]

/-! ## buffers by patch -/

section
variable {α β : Type}

theorem eq_range_map (l : List (List α)) : l = (List.range l.length).map fun p => l.getD p [] := by
  apply List.ext_getElem?
  intro i
  rw [List.getElem?_map]
  by_cases hi : i < l.length
  · rw [List.getElem?_range hi, Option.map_some, List.getD_eq_getElem?_getD, List.getElem?_eq_getElem hi]
    rfl
  · rw [List.getElem?_eq_none (by omega), List.getElem?_eq_none (by simp; omega)]
    rfl

theorem flatten_flat (l : List (List α)) : l.flatten = flat (fun p => l.getD p []) l.length := by
  conv_lhs => rw [eq_range_map l]
  rfl

theorem zipIdx_eq (l : List (List α)) : l.zipIdx = (List.range l.length).map fun p => (l.getD p [], p) := by
  apply List.ext_getElem?
  intro i
  rw [List.getElem?_map, List.getElem?_zipIdx]
  by_cases hi : i < l.length
  · rw [List.getElem?_range hi, Option.map_some, List.getD_eq_getElem?_getD, List.getElem?_eq_getElem hi]
    simp
  · rw [List.getElem?_eq_none (by omega), List.getElem?_eq_none (by simp; omega)]
    rfl

theorem getD_mem {l : List (List α)} {p : ℕ} {q : α} (h : q ∈ l.getD p []) : ∃ l' ∈ l, q ∈ l' := by
  rw [List.getD_eq_getElem?_getD] at h
  by_cases hp : p < l.length
  · rw [List.getElem?_eq_getElem hp] at h
    exact ⟨_, List.getElem_mem hp, h⟩
  · rw [List.getElem?_eq_none (by omega)] at h
    simp at h

theorem split_flatten : ∀ l : List (List α), split l.flatten (l.map List.length) = some l
  | [] => rfl
  | a :: l => by
    rw [List.flatten_cons, List.map_cons, split, if_pos (by simp), List.drop_left, List.take_left, split_flatten l]
    rfl

end

/-- what is stored of the particles of patch `p` -/
def bucket (l : List (List (Prt K))) (p : ℕ) : List (Sto K) := (l.getD p []).map store

theorem stored_bucket (l : List (List (Prt K))) (p : ℕ) : stored (l.getD p []) = (bucket l p : Multiset (Sto K)) := rfl

theorem flatten_store (l : List (List (Prt K))) : l.flatten.map store = flat (bucket l) l.length := by
  rw [flatten_flat, flat_map]
  rfl

theorem bucket_inPatch {e : Env K} {l : List (List (Prt K))} (h : ∀ l' ∈ l, ∀ q ∈ l', InPatch e q.x) (p : ℕ) :
    ∀ q ∈ bucket l p, InPatch e q.x := by
  intro q hq
  obtain ⟨q', hq', rfl⟩ := List.mem_map.1 hq
  obtain ⟨l', h1, h2⟩ := getD_mem hq'
  exact h l' h1 q' h2

theorem code_facts {e : Env K} (hg : e.g.Ok) {x : R3 K} (h : InPatch e x) {p : ℕ} (hp : p < e.g.nPatches) :
    blockIndex e x p = some (code e p x) ∧ code e p x < e.g.nBlocks := by
  obtain ⟨r, h1, h2, _⟩ := blockIndex_some hg h p
  rw [code_in h h1]
  exact ⟨h1, h2 hp⟩

/-- block numbers of particles that come from the host -/
theorem host_codes {e : Env K} {l : List (List (Prt K))} (hl : l.length = e.g.nPatches) {f : ℕ → Prt K → Option ℕ}
    (hf : ∀ p < e.g.nPatches, ∀ q ∈ l.getD p [], f p q = some (code e p q.x)) :
    ∃ L, (l.zipIdx).mapM (fun a => a.1.mapM (f a.2)) = some L ∧
      L.flatten = flat (fun p => (bucket l p).map fun q => code e p q.x) e.g.nPatches := by
  refine ⟨(l.zipIdx).map fun a => a.1.map fun q => code e a.2 q.x, ?_, ?_⟩
  · refine mapM_some fun a ha => mapM_some fun q hq => ?_
    rw [zipIdx_eq] at ha
    obtain ⟨p, hp, rfl⟩ := List.mem_map.1 ha
    rw [List.mem_range, hl] at hp
    exact hf p hp q hq
  · rw [zipIdx_eq, List.map_map, hl]
    unfold flat
    rw [List.flatMap_def]
    congr 1
    refine List.map_congr_left fun p _ => ?_
    unfold bucket
    rw [List.map_map]
    rfl

theorem hostBlocks_codes {e : Env K} (hg : e.g.Ok) {l : List (List (Prt K))} (hl : l.length = e.g.nPatches)
    (h : ∀ l' ∈ l, ∀ q ∈ l', InPatch e q.x) :
    ∃ L, (l.zipIdx).mapM (fun a => hostBlocks e a.2 a.1) = some L ∧
      L.flatten = flat (fun p => (bucket l p).map fun q => code e p q.x) e.g.nPatches := by
  refine host_codes hl (f := fun p q => (blockIndex e q.x p).bind fun b => if b < e.g.nBlocks then some b else none) ?_
  intro p hp q hq
  obtain ⟨l', h1, h2⟩ := getD_mem hq
  obtain ⟨c1, c2⟩ := code_facts hg (h l' h1 q h2) hp
  rw [c1, Option.bind_some, if_pos c2]

theorem recvBlock_codes {e : Env K} (hg : e.g.Ok) {l : List (List (Prt K))} (hl : l.length = e.g.nPatches)
    (h : ∀ l' ∈ l, ∀ q ∈ l', InPatch e q.x) :
    ∃ L, (l.zipIdx).mapM (fun a => a.1.mapM (recvBlock e a.2)) = some L ∧
      L.flatten = flat (fun p => (bucket l p).map fun q => code e p q.x) e.g.nPatches := by
  refine host_codes hl ?_
  intro p hp q hq
  obtain ⟨l', h1, h2⟩ := getD_mem hq
  obtain ⟨c1, c2⟩ := code_facts hg (h l' h1 q h2) hp
  unfold recvBlock
  rw [check_inPatch (h l' h1 q h2)]
  simp only [Option.bind_eq_bind, Option.bind_some]
  rw [c1, Option.bind_some, if_pos c2]

/-- pairs of block number and particle -/
theorem zip_codes (e : Env K) (C : ℕ → List (Sto K)) :
    (flat (fun p => (C p).map fun q => code e p q.x) e.g.nPatches).zip (flat C e.g.nPatches) =
      flat (fun p => (C p).map fun q => (code e p q.x, q)) e.g.nPatches :=
  flat_zip C (fun p q => code e p q.x) _

theorem zip_codes_append (e : Env K) (C R : ℕ → List (Sto K)) :
    ((flat (fun p => (C p).map fun q => code e p q.x) e.g.nPatches ++
      flat (fun p => (R p).map fun q => code e p q.x) e.g.nPatches).zip (flat C e.g.nPatches ++ flat R e.g.nPatches)).Perm
      (flat (fun p => (C p ++ R p).map fun q => (code e p q.x, q)) e.g.nPatches) := by
  rw [List.zip_append (by rw [flat_length, flat_length]; exact pre_congr (by simp)), zip_codes, zip_codes]
  refine (flat_append_perm _ _ _).trans (List.Perm.of_eq ?_)
  exact flat_congr fun p _ => List.map_append.symm

/-! ## sorting particles that are all in their patches -/

theorem sorted_rel {e : Env K} (hg : e.g.Ok) {s : State K} {D : ℕ → List (Sto K)} (hp : e.g.nPatches ≠ 0)
    (h1 : s.storage.length = s.n) (h2 : s.idx.length = s.n) (h3 : s.id = List.range s.n)
    (h4 : s.off.length = e.g.nBlocks + 1)
    (hz : (s.idx.zip s.storage).Perm (flat (fun p => (D p).map fun q => (code e p q.x, q)) e.g.nPatches))
    (hD : ∀ p < e.g.nPatches, ∀ q ∈ D p, InPatch e q.x) :
    ∃ s', reorderAndOffsets e (stableSort s) = some s' ∧
      ∀ a : Abs K, (∀ p < e.g.nPatches, a.c p = (D p : Multiset (Sto K))) → a.ph = .fresh → Rel e a s' := by
  have h5 : ∀ b ∈ s.idx, b < e.g.nBlocks := by
    intro b hb
    have : b ∈ (s.idx.zip s.storage).map Prod.fst := by rw [List.map_fst_zip (by omega)]; exact hb
    obtain ⟨w, hw, rfl⟩ := List.mem_map.1 this
    obtain ⟨p, hp, h⟩ := mem_flat.1 (hz.mem_iff.1 hw)
    obtain ⟨q, hq, rfl⟩ := List.mem_map.1 h
    exact (code_facts hg (hD p hp q hq) hp).2
  obtain ⟨s', T, r0, t1, t2, r1, r2, r3, r4, r5⟩ := sort_spec hp h1 h2 h3 h4 h5
  obtain ⟨B, b1, b2, b3, b4, b5⟩ := buckets_spec hg (t1.trans hz) t2
  have hnil : (T.filter fun a => e.g.nBlocks ≤ a.1) = [] := by
    rw [List.filter_eq_nil_iff]
    intro a ha
    have := h5 a.1 (List.of_mem_zip (t1.mem_iff.1 ha : (a.1, a.2) ∈ _)).1
    simp; omega
  rw [hnil, List.map_nil, List.append_nil] at b4 b5
  refine ⟨s', r0, fun a ha hph => ⟨B, ⟨?_, ?_, ?_⟩, ?_⟩⟩
  · rw [r3, b3]
  · have : (T.map Prod.snd).length = (flat B e.g.nBlocks).length := by rw [b4]
    rw [List.length_map, flat_length, t1.length_eq, List.length_zip] at this
    rw [r4]; omega
  · intro p hp
    rw [ha p hp, Multiset.coe_eq_coe]
    refine ((b2 p hp).trans (List.Perm.of_eq ?_)).symm
    rw [List.filter_eq_self]
    intro q hq
    simpa using hD p hp q hq
  · rw [hph]
    exact ⟨⟨by rw [r1, b4], by rw [r2, b5], xok_of_blocks hg b1, by simp [r5]⟩, b1⟩

/-! ## inject -/

theorem write_append {α : Type} (l : List α) (ws ws' : List (ℕ × α)) :
    write l (ws ++ ws') = (write l ws).bind fun l => write l ws' := by
  unfold write
  rw [List.foldlM_append]
  rfl

theorem foldlM_write {α β : Type} (f : β → List (ℕ × α)) : ∀ (l : List β) (o : List α),
    l.foldlM (fun o b => write o (f b)) o = write o (l.flatMap f)
  | [], _ => rfl
  | b :: l, o => by
    rw [List.foldlM_cons, List.flatMap_cons, write_append]
    cases write o (f b) with
    | none => rfl
    | some o' => exact foldlM_write f l o'

theorem foldlM_congr' {α β : Type} {f g : α → β → Option α} : ∀ {l : List β}, (∀ b ∈ l, ∀ o, f o b = g o b) → ∀ o,
    l.foldlM f o = l.foldlM g o
  | [], _, _ => rfl
  | b :: l, h, o => by
    rw [List.foldlM_cons, List.foldlM_cons, h b List.mem_cons_self]
    cases g o b with
    | none => rfl
    | some o' => exact foldlM_congr' (fun b hb => h b (List.mem_cons_of_mem _ hb)) o'

theorem sum_take_getD (ns : List ℕ) (p : ℕ) : (ns.take p).sum + ns.getD p 0 = (ns.take (p + 1)).sum := by
  rw [List.take_add_one, List.sum_append, List.getD_eq_getElem?_getD]
  cases ns[p]? <;> simp

theorem sum_take_pre (l : List (List (Prt K))) {p : ℕ} (hp : p ≤ l.length) : ((l.map List.length).take p).sum = pre (bucket l) p := by
  induction p with
  | zero => simp [pre_zero]
  | succ p ih =>
    rw [← sum_take_getD, ih (by omega), pre_succ]
    congr 1
    unfold bucket
    rw [List.length_map, List.getD_eq_getElem?_getD, List.getD_eq_getElem?_getD, List.getElem?_map,
      List.getElem?_eq_getElem (by omega)]
    rfl

/-- `inject_initial` -/
theorem injectInitial_ok {e : Env K} (hg : e.g.Ok) {s : State K} (h1 : s.storage = []) (h2 : s.n = 0)
    (h3 : s.off = List.replicate (e.g.nBlocks + 1) 0) {ps : List (List (Prt K))} (hl : ps.length = e.g.nPatches)
    (hps : ∀ l ∈ ps, ∀ q ∈ l, InPatch e q.x) :
    ∃ s', injectInitial e s ps.flatten (ps.map List.length) = some s' ∧ s'.storage = flat (bucket ps) e.g.nPatches ∧
      s'.n = pre (bucket ps) e.g.nPatches ∧ s'.off.length = e.g.nBlocks + 1 ∧
      (∀ p ≤ e.g.nPatches, s'.off[p * e.g.bpp]? = some (pre (bucket ps) p)) ∧ (e.g.nPatches = 0 → s'.off = s.off) := by
  have hle : ∀ p ≤ e.g.nPatches, p * e.g.bpp < e.g.nBlocks + 1 := by
    intro p hp
    have : p * e.g.bpp ≤ e.g.nPatches * e.g.bpp := Nat.mul_le_mul_right _ hp
    show _ < e.g.nPatches * e.g.bpp + 1
    omega
  have hoff : ∀ p ≤ e.g.nPatches, s.off[p * e.g.bpp]? = some 0 := by
    intro p hp
    rw [h3, List.getElem?_replicate, if_pos (hle p hp)]
  have hsum : (ps.map List.length).sum = pre (bucket ps) e.g.nPatches := by
    rw [← sum_take_pre ps (p := e.g.nPatches) (by omega), List.take_of_length_le (by simp [hl])]
  -- the offsets
  obtain ⟨f, hf⟩ : ∃ f : ℕ → ℕ, ∀ p ≤ e.g.nPatches, f (p * e.g.bpp) = pre (bucket ps) p := by
    rcases Nat.eq_zero_or_pos e.g.bpp with h0 | h0
    · refine ⟨fun _ => 0, fun p hp => ?_⟩
      induction p with
      | zero => rfl
      | succ p ih =>
        rw [pre_succ, ← ih (by omega)]
        have : bucket ps p = [] := by
          rw [List.eq_nil_iff_forall_not_mem]
          intro q hq
          have := (code_facts hg (bucket_inPatch hps p q hq) (show p < e.g.nPatches by omega)).2
          simp [Ix.nBlocks, h0] at this
        simp [this]
    · exact ⟨fun i => pre (bucket ps) (i / e.g.bpp), fun p _ => by
        show pre (bucket ps) (p * e.g.bpp / e.g.bpp) = _
        rw [Nat.mul_div_cancel _ h0]⟩
  set ws : List (ℕ × ℕ) := (List.range e.g.nPatches).flatMap fun p =>
    [(p * e.g.bpp, pre (bucket ps) p), ((p + 1) * e.g.bpp, pre (bucket ps) (p + 1))] with hws
  obtain ⟨off, o1, o2, o3⟩ := write_spec f ws s.off (by
    intro w hw
    obtain ⟨p, hp, hw⟩ := List.mem_flatMap.1 hw
    have hp := List.mem_range.1 hp
    rw [h3, List.length_replicate]
    simp only [List.mem_cons, List.not_mem_nil, or_false] at hw
    rcases hw with rfl | rfl
    · exact ⟨hle p (by omega), (hf p (by omega)).symm⟩
    · exact ⟨hle (p + 1) (by omega), (hf (p + 1) (by omega)).symm⟩)
  rw [h3, List.length_replicate] at o2
  refine ⟨{ (s.resize (ps.map List.length).sum) with
    storage := ps.flatten.map store, off := off, n := (ps.map List.length).sum }, ?_, ?_, hsum, o2, ?_, ?_⟩
  · unfold injectInitial
    rw [if_pos ⟨by rw [h1]; rfl, h2⟩]
    rw [mapM_some (g := fun _ => ())]
    · simp only [Option.bind_eq_bind, Option.bind_some, List.length_map, List.length_range, hl, if_true]
      rw [split_flatten, Option.bind_some, mapM_some (g := fun l => l), Option.bind_some, List.map_id']
      · have hfold : (List.range e.g.nPatches).foldlM (fun off p => (write off [(p * e.g.bpp, ((ps.map List.length).take p).sum)]).bind
            fun off => write off [((p + 1) * e.g.bpp, ((ps.map List.length).take p).sum + (ps.map List.length).getD p 0)]) s.off =
            some off := by
          rw [← o1, hws, ← foldlM_write]
          refine foldlM_congr' ?_ _
          intro p hp off'
          have hp := List.mem_range.1 hp
          rw [sum_take_getD, sum_take_pre ps (by omega), sum_take_pre ps (by omega), ← write_append]
          rfl
        have hfold' : (List.range e.g.nPatches).foldlM (fun off p => (write off [(p * e.g.bpp, ((ps.map List.length).take p).sum)]).bind
            fun off => write off [((p + 1) * e.g.bpp, ((ps.map List.length).take p).sum + (ps.map List.length).getD p 0)])
            (s.resize (ps.map List.length).sum).off = some off := hfold
        rw [hfold']
        rfl
      · intro l hl'
        rw [mapM_some (g := fun q => q), List.map_id']
        intro q hq
        exact check_inPatch (hps l hl' q hq)
    · intro p hp
      have hp := List.mem_range.1 hp
      rw [hoff p (by omega), hoff (p + 1) (by omega)]
      rfl
  · show ps.flatten.map store = _
    rw [flatten_store, hl]
  · intro p hp
    show off[p * e.g.bpp]? = _
    rw [o3 _ (by rw [h3, List.length_replicate]; exact hle p hp), hf p hp, hoff p hp]
    split_ifs with hm
    · rfl
    · rcases Nat.eq_zero_or_pos e.g.nPatches with h0 | h0
      · have : p = 0 := by omega
        rw [this, pre_zero]
      · exfalso
        apply hm
        rw [List.mem_map]
        by_cases hlt : p < e.g.nPatches
        · exact ⟨(p * e.g.bpp, pre (bucket ps) p), List.mem_flatMap.2 ⟨p, List.mem_range.2 hlt, by simp⟩, rfl⟩
        · have : p = (p - 1) + 1 := by omega
          rw [this]
          exact ⟨((p - 1 + 1) * e.g.bpp, pre (bucket ps) (p - 1 + 1)),
            List.mem_flatMap.2 ⟨p - 1, List.mem_range.2 (by omega), by simp⟩, rfl⟩
  · intro h0
    show off = s.off
    rw [hws, h0] at o1
    exact (Option.some.injEq _ _ ▸ o1 : s.off = off).symm

theorem rel_empty {e : Env K} {a : Abs K} {s : State K} {B : ℕ → List (Sto K)} (hb : Base e a B s) (hph : PhaseOk e B s a.ph)
    (hn : s.n = 0) : s.storage = [] ∧ (∀ p < e.g.nPatches, a.c p = 0) ∧ s.off = List.replicate (e.g.nBlocks + 1) 0 := by
  have hz : pre B e.g.nBlocks = 0 := by rw [← hb.n, hn]
  refine ⟨?_, ?_, ?_⟩
  · cases hp : a.ph with
    | fresh => rw [hp] at hph; rw [hph.1.storage, flat_nil_of_pre hz]
    | pushed => rw [hp] at hph; rw [(show Ordered e B s from hph).storage, flat_nil_of_pre hz]
    | exchanged => rw [hp] at hph; exact (show Unordered e B s from hph).zero hn
    | cleared => rw [hp] at hph; exact hph.1
  · intro p hp
    rw [hb.cont p hp, Multiset.coe_eq_zero, List.eq_nil_iff_forall_not_mem]
    intro q hq
    obtain ⟨r, hr, h, _⟩ := patchOf_mem hp hq
    rw [nil_of_pre hz hr] at h
    simp at h
  · rw [hb.off, List.eq_replicate_iff]
    refine ⟨by simp, ?_⟩
    intro b hb'
    obtain ⟨r, hr, rfl⟩ := List.mem_map.1 hb'
    have := pre_mono B (show r ≤ e.g.nBlocks by have := List.mem_range.1 hr; omega)
    omega

theorem good_inject {e : Env K} (hg : e.g.Ok) {a : Abs K} {s : State K} (h : Rel e a s) {ps : List (List (Prt K))}
    (ha : Allowed e a (.inject ps)) : Good e a s (.inject ps) := by
  obtain ⟨B, hb, hph⟩ := h
  obtain ⟨hl, hps, hpush⟩ := ha
  suffices hsuf : ∃ s', inject e s ps.flatten (ps.map List.length) = some s' ∧ Rel e (after e a (.inject ps)) s' by
    obtain ⟨s', h1, h2⟩ := hsuf
    refine ⟨⟨_, s', .inject h1⟩, ?_, ?_⟩
    · intro hf
      cases hf with
      | inject h => rw [h] at h1; simp at h1
    · intro o s'' hs
      cases hs with
      | inject h =>
        rw [h, Option.some.injEq] at h1
        subst h1
        exact ⟨trivial, h2⟩
  by_cases hn : s.n = 0
  · obtain ⟨k1, k2, k3⟩ := rel_empty hb hph hn
    obtain ⟨s₁, i1, i2, i3, i4, i5, i6⟩ := injectInitial_ok hg k1 hn k3 hl hps
    have hf := findIndices_spec hg i2 i3 i5 fun p _ => bucket_inPatch hps p
    unfold inject
    rw [if_pos hn]
    simp only [Option.bind_eq_bind]
    rw [i1, Option.bind_some]
    unfold setupInternals
    rw [hf]
    simp only [Option.bind_eq_bind, Option.bind_some]
    have hcont : ∀ p < e.g.nPatches, (after e a (.inject ps)).c p = (bucket ps p : Multiset (Sto K)) := by
      intro p hp
      show a.c p + stored _ = _
      rw [k2 p hp, zero_add, stored_bucket]
    by_cases hp : e.g.nPatches = 0
    · have hN : e.g.nBlocks = 0 := by simp [Ix.nBlocks, hp]
      have hi0 : flat (fun p => (bucket ps p).map fun q => code e p q.x) e.g.nPatches = [] := by rw [hp, flat_zero]
      have hn0 : s₁.n = 0 := by rw [i3, hp, pre_zero]
      have hst0 : s₁.storage = [] := by rw [i2, hp, flat_zero]
      unfold reorderAndOffsets
      rw [if_pos hp, hi0, hn0]
      refine ⟨_, rfl, B, ⟨?_, ?_, ?_⟩, ⟨?_, ?_, ?_, ?_⟩, ?_⟩
      · exact (i6 hp).trans hb.off
      · rw [hN, pre_zero]; rfl
      · intro p hp'; omega
      · rw [hN, flat_zero]; exact hst0
      · show (sortByKey [] (List.range 0)).1 = _
        unfold keys
        rw [hN, flat_zero]
        simp [sortByKey]
      · intro r hr; omega
      · intro _; rfl
      · intro r hr; omega
    · obtain ⟨s', r1, r2⟩ := sorted_rel hg (s := { s₁ with
          idx := flat (fun p => (bucket ps p).map fun q => code e p q.x) e.g.nPatches, id := List.range s₁.n })
          (D := bucket ps) hp (by simp only; rw [i2, flat_length, i3])
          (by simp only; rw [flat_length, i3]; exact pre_congr (by simp)) rfl i4
          (by simp only; rw [i2, zip_codes]) (fun p _ => bucket_inPatch hps p)
      exact ⟨s', r1, r2 _ hcont rfl⟩
  · have hp : e.g.nPatches ≠ 0 := by
      intro h0
      have := hb.n
      rw [show e.g.nBlocks = e.g.nPatches * e.g.bpp from rfl, h0, Nat.zero_mul, pre_zero] at this
      exact hn this
    have hre : ∃ s₁, (if s.need = true then reorder s else some s) = some s₁ ∧ Base e a B s₁ ∧ Ordered e B s₁ ∧
        ∀ p < e.g.nPatches, ∀ q ∈ patchOf e B p, InPatch e q.x := by
      have hblk : Blocks e B → ∀ p < e.g.nPatches, ∀ q ∈ patchOf e B p, InPatch e q.x := by
        intro hB p hp q hq
        obtain ⟨r, hr, h, _⟩ := patchOf_mem hp hq
        exact inPatch_of_blockIndex hg (hB r hr q h)
      cases hpc : a.ph with
      | fresh =>
        rw [hpc] at hph
        refine ⟨s, ?_, hb, hph.1, hblk hph.2⟩
        rw [if_neg fun hd => hn (hph.1.need hd)]
      | pushed =>
        rw [hpc] at hph
        have ho : Ordered e B s := hph
        refine ⟨s, ?_, hb, ho, ?_⟩
        · rw [if_neg fun hd => hn (ho.need hd)]
        · intro p hp q hq
          refine hpush hpc p hp q ?_
          rw [hb.cont p hp]
          exact hq
      | exchanged =>
        rw [hpc] at hph
        have hu : Unordered e B s := hph
        obtain ⟨s', h1, h2, h3⟩ := reorder_unordered hg hb hu
        exact ⟨s', by rw [if_pos hu.need]; exact h1, h2, h3, hblk hu.blocks⟩
      | cleared => rw [hpc] at hph; exact absurd hph.2 hn
    obtain ⟨s₁, q1, hb₁, ho, hin⟩ := hre
    obtain ⟨L, l1, l2⟩ := hostBlocks_codes hg hl hps
    have hf := findIndices_spec hg (s := s₁) (C := patchOf e B) (by rw [ho.storage, flat_patch]) hb₁.n_patch
      (fun p hp => hb₁.off_patch hp) hin
    have hsum : (ps.map List.length).sum = pre (bucket ps) e.g.nPatches := by
      rw [← sum_take_pre ps (p := e.g.nPatches) (by omega), List.take_of_length_le (by simp [hl])]
    unfold inject
    rw [if_neg hn, List.length_map, if_pos hl, split_flatten]
    simp only [Option.bind_eq_bind, Option.bind_some]
    rw [l1, Option.bind_some]
    have hdo : ∀ f : State K → Option (State K), (if s.need = true then (reorder s).bind f else f s) = f s₁ := by
      intro f
      split_ifs at q1 ⊢ with hd
      · rw [q1, Option.bind_some]
      · rw [Option.some.injEq] at q1
        rw [q1]
    have e1 : (resize default (s₁.n + (ps.map List.length).sum) s₁.storage).take s₁.n = flat (patchOf e B) e.g.nPatches := by
      rw [resize_take _ _ (by rw [ho.storage, flat_length, hb₁.n]) (by omega), ho.storage, flat_patch,
        List.take_of_length_le (by rw [flat_length, hb₁.n_patch])]
    have e2 : (resize 0 (s₁.n + (ps.map List.length).sum) (flat (fun p => (patchOf e B p).map fun q => code e p q.x)
        e.g.nPatches)).take s₁.n = flat (fun p => (patchOf e B p).map fun q => code e p q.x) e.g.nPatches := by
      have hlen : (flat (fun p => (patchOf e B p).map fun q => code e p q.x) e.g.nPatches).length = s₁.n := by
        rw [flat_length, hb₁.n_patch]; exact pre_congr (by simp)
      rw [resize_take _ _ (by omega) (by omega), List.take_of_length_le (by omega)]
    obtain ⟨s', r1, r2⟩ := sorted_rel hg (s := { s₁ with
        storage := flat (patchOf e B) e.g.nPatches ++ flat (bucket ps) e.g.nPatches
        idx := flat (fun p => (patchOf e B p).map fun q => code e p q.x) e.g.nPatches ++
          flat (fun p => (bucket ps p).map fun q => code e p q.x) e.g.nPatches
        id := List.range (s₁.n + (ps.map List.length).sum)
        n := s₁.n + (ps.map List.length).sum })
        (D := fun p => patchOf e B p ++ bucket ps p) hp
        (by simp only; rw [List.length_append, flat_length, flat_length, hb₁.n_patch, hsum])
        (by simp only
            rw [List.length_append, flat_length, flat_length, hb₁.n_patch, hsum]
            congr 1 <;> exact pre_congr (by simp)) rfl (by simp only; rw [hb₁.off]; simp)
        (by simp only; exact zip_codes_append e _ _)
        (fun p hp q hq => by
          rcases List.mem_append.1 hq with h | h
          · exact hin p hp q h
          · exact bucket_inPatch hps p q h)
    refine ⟨s', (hdo _).trans ?_, r2 _ ?_ rfl⟩
    · rw [hf, ← r1]
      simp only [Option.bind_some]
      congr 2
      simp only [State.resize]
      rw [e1, e2, l2, flatten_store, hl]
    · intro p hp
      show a.c p + stored _ = _
      rw [hb.cont p hp, stored_bucket]
      rfl

/-! ## exchange -/

open Classical in
theorem good_exchange {e : Env K} (hg : e.g.Ok) {a : Abs K} {s : State K} (h : Rel e a s) {recv : List (List (Prt K))}
    (ha : Allowed e a (.exchange recv)) : Good e a s (.exchange recv) := by
  obtain ⟨B, hb, hph⟩ := h
  obtain ⟨ha1, ha2, hl, hrecv, hempty⟩ := ha
  have ho : Ordered e B s := by
    cases hp : a.ph with
    | fresh => rw [hp] at hph; exact hph.1
    | pushed => rw [hp] at hph; exact hph
    | exchanged => exact absurd hp ha1
    | cleared => exact absurd hp ha2
  set C := patchOf e B with hC
  set Z : List (ℕ × Sto K) := flat (fun p => (C p).map fun q => (code e p q.x, q)) e.g.nPatches with hZ
  have hzip : s.idx.zip s.storage = Z := by rw [ho.idx, ho.storage, keys_patch, flat_patch, zip_codes]
  have hls : s.storage.length = s.n := by rw [ho.storage, flat_length, hb.n]
  have hli : s.idx.length = s.n := by rw [ho.idx, keys_length, hb.n]
  set out := Z.filter fun a => e.g.nBlocks ≤ a.1 with hout
  have hout' : out = flat (fun p => ((C p).filter fun q => ¬InPatch e q.x).map fun q => (e.g.nBlocks + p, q)) e.g.nPatches := by
    rw [hout, hZ, flat_filter]
    refine flat_congr fun p hp => ?_
    rw [List.filter_map]
    have : List.filter ((fun a : ℕ × Sto K => decide (e.g.nBlocks ≤ a.1)) ∘ fun q : Sto K => (code e p q.x, q)) (C p) =
        (C p).filter fun q => ¬InPatch e q.x := by
      refine List.filter_congr fun q _ => ?_
      simp only [Function.comp, decide_eq_decide]
      exact code_lt hg hp
    rw [this]
    refine List.map_congr_left fun q hq => ?_
    have : ¬InPatch e q.x := by simpa using (List.mem_filter.1 hq).2
    rw [code_out this]
  set s₁ : State K := { s with idx := s.idx ++ out.map Prod.fst, storage := s.storage ++ out.map Prod.snd } with hs₁
  set sent : List (List (Prt K)) := (List.range e.g.nPatches).map fun p => ((C p).filter fun q => ¬InPatch e q.x).map load with hsent
  have hprep : prep e s = some (s₁, sent) := by
    unfold prep
    rw [if_pos ⟨by omega, by omega⟩, hzip]
    simp only
    rw [if_pos]
    · congr 1
      refine Prod.ext rfl ?_
      rw [hsent]
      refine List.map_congr_left fun p hp => ?_
      have hp := List.mem_range.1 hp
      rw [← hout, hout', flat_filter, flat_single hp]
      · rw [List.filter_map, List.map_map, List.filter_eq_self.2]
        · rfl
        · intro q _
          simp
      · intro p' _ hne
        rw [List.filter_eq_nil_iff]
        intro w hw
        obtain ⟨q, _, rfl⟩ := List.mem_map.1 hw
        simpa using hne
    · rw [← hout, hout', List.all_eq_true]
      intro w hw
      obtain ⟨p, hp, h⟩ := mem_flat.1 hw
      obtain ⟨q, _, rfl⟩ := List.mem_map.1 h
      simpa using hp
  obtain ⟨L, l1, l2⟩ := recvBlock_codes hg hl hrecv
  set R := bucket recv with hR
  have hnr : recv.flatten.length = pre R e.g.nPatches := by
    have := congrArg List.length (flatten_store recv)
    rw [List.length_map, flat_length, hl] at this
    exact this
  set ks : List ℕ := s.idx ++ flat (fun p => (R p).map fun q => code e p q.x) e.g.nPatches with hks
  set st : List (Sto K) := s.storage ++ flat R e.g.nPatches with hst
  have hlst : st.length = s.n + recv.flatten.length := by rw [hst, List.length_append, flat_length, hls, hnr]
  have hlks : ks.length = st.length := by
    rw [hlst, hks, List.length_append, flat_length, hli, hnr]
    congr 1
    exact pre_congr (by simp)
  have hpost : post e s₁ recv = some { s₁ with
      storage := st, idx := (sortByKey ks (List.range st.length)).1, id := (sortByKey ks (List.range st.length)).2,
      n := s.n + recv.flatten.length - out.length,
      off := s.off.take 1 ++ (List.range e.g.nBlocks).map (upperBound (sortByKey ks (List.range st.length)).1), need := true } := by
    unfold post
    rw [if_pos hl, l1]
    simp only [Option.bind_eq_bind, Option.bind_some, State.resize, resize_length]
    have e1 : (resize default (s₁.n + recv.flatten.length) s₁.storage).take s₁.n = s.storage := by
      rw [resize_take _ _ (by simp only [hs₁, List.length_append]; omega) (by omega)]
      simp only [hs₁]
      rw [List.take_left' hls]
    have e2 : (resize 0 (s₁.n + recv.flatten.length) s₁.idx).take s₁.n = s.idx := by
      rw [resize_take _ _ (by simp only [hs₁, List.length_append]; omega) (by omega)]
      simp only [hs₁]
      rw [List.take_left' hli]
    have e3 : s₁.idx.length - s₁.n = out.length := by
      simp only [hs₁, List.length_append, List.length_map]; omega
    rw [e1, e2, e3, l2, flatten_store, hl, ← hR, ← hks, ← hst]
    have e4 : s₁.n + recv.flatten.length = st.length := by rw [hlst]
    rw [e4]
  set s' : State K := { s₁ with
      storage := st, idx := (sortByKey ks (List.range st.length)).1, id := (sortByKey ks (List.range st.length)).2,
      n := s.n + recv.flatten.length - out.length,
      off := s.off.take 1 ++ (List.range e.g.nBlocks).map (upperBound (sortByKey ks (List.range st.length)).1), need := true } with hs'
  -- the sorted particles
  obtain ⟨T, t1, t2, t3, t4, t5⟩ := sortByKey_view (keys := ks) (st := st) hlks
  have hperm : (ks.zip st).Perm (flat (fun p => (C p ++ R p).map fun q => (code e p q.x, q)) e.g.nPatches) := by
    have := zip_codes_append e C R
    rw [hks, hst, ho.idx, ho.storage, keys_patch, flat_patch]
    exact this
  obtain ⟨B', b1, b2, b3, b4, b5⟩ := buckets_spec hg (t1.trans hperm) t2
  have hTl : T.length = s.n + recv.flatten.length := by
    rw [t1.length_eq, List.length_zip]; omega
  have hTo : (T.filter fun a => e.g.nBlocks ≤ a.1).length = out.length := by
    rw [(t1.filter _).length_eq, hks, hst, List.zip_append (by omega), hzip, List.filter_append, List.length_append, ← hout,
      zip_codes, List.filter_eq_nil_iff.2]
    · simp
    · intro w hw
      obtain ⟨p, hp, h⟩ := mem_flat.1 hw
      obtain ⟨q, hq, rfl⟩ := List.mem_map.1 h
      have := (code_facts hg (bucket_inPatch hrecv p q hq) hp).2
      simp; omega
  have hn' : s'.n = pre B' e.g.nBlocks := by
    have : (T.map Prod.snd).length = (flat B' e.g.nBlocks).length + out.length := by
      rw [b4, List.length_append, List.length_map, hTo]
    rw [List.length_map, flat_length] at this
    show s.n + recv.flatten.length - out.length = _
    omega
  have hcont : ∀ p < e.g.nPatches, (after e a (.exchange recv)).c p = (patchOf e B' p : Multiset (Sto K)) := by
    intro p hp
    show (a.c p).filter (fun q => InPatch e q.x) + stored _ = _
    rw [hb.cont p hp, stored_bucket, Multiset.filter_coe, Multiset.coe_add, Multiset.coe_eq_coe]
    refine ((b2 p hp).trans (List.Perm.of_eq ?_)).symm
    rw [List.filter_append, (List.filter_eq_self (l := R p)).2]
    intro q hq
    simpa using bucket_inPatch hrecv p q hq
  have hrel : Rel e (after e a (.exchange recv)) s' := by
    refine ⟨B', ⟨?_, hn', hcont⟩, ?_⟩
    · show s.off.take 1 ++ (List.range e.g.nBlocks).map (upperBound (sortByKey ks (List.range st.length)).1) = _
      rw [hb.off, t3, List.range_succ_eq_map, List.map_cons, List.map_cons, List.take_succ_cons, List.take_zero, List.map_map]
      refine congrArg₂ List.cons rfl ?_
      show (List.range e.g.nBlocks).map _ = _
      refine List.map_congr_left fun r _ => ?_
      rw [upperBound_sorted t2, b3]
      rfl
    · refine (show Unordered e B' s' from ⟨b1, rfl, ?_, ?_, ?_, ?_, ?_, ?_⟩)
      · show st.length = (sortByKey ks (List.range st.length)).1.length
        rw [t3, List.length_map, hTl, hlst]
      · exact t4.symm
      · show s.n + recv.flatten.length - out.length ≤ st.length
        omega
      · intro h0
        have hz : pre B' e.g.nBlocks = 0 := by rw [← hn']; exact h0
        have hc0 : ∀ p < e.g.nPatches, (after e a (.exchange recv)).c p = 0 := by
          intro p hp
          rw [hcont p hp, Multiset.coe_eq_zero, List.eq_nil_iff_forall_not_mem]
          intro q hq
          obtain ⟨r, hr, h, _⟩ := patchOf_mem hp hq
          rw [nil_of_pre hz hr] at h
          simp at h
        have hc1 := hempty hc0
        show st = []
        rw [hst, ho.storage, flat_patch, List.append_eq_nil_iff]
        constructor
        · rw [List.eq_nil_iff_forall_not_mem]
          intro q hq
          obtain ⟨p, hp, h⟩ := mem_flat.1 hq
          have := hc1 p hp
          rw [hb.cont p hp, Multiset.coe_eq_zero] at this
          rw [this] at h
          simp at h
        · rw [List.eq_nil_iff_forall_not_mem]
          intro q hq
          obtain ⟨p, hp, h⟩ := mem_flat.1 hq
          have h2 : (a.c p).filter (fun q => InPatch e q.x) + stored (recv.getD p []) = 0 := hc0 p hp
          have h3 : q ∈ (a.c p).filter (fun q => InPatch e q.x) + stored (recv.getD p []) := Multiset.mem_add.2 (Or.inr h)
          rw [h2] at h3
          exact Multiset.notMem_zero _ h3
      · show ((sortByKey ks (List.range st.length)).1).take s'.n = _
        rw [t3, b5, hn', List.take_left' (keys_length e B')]
      · intro i hi
        have hi' : i < s.n + recv.flatten.length - out.length := hi
        obtain ⟨j, j1, j2⟩ := t5 i (by omega)
        refine ⟨j, j1, ?_⟩
        show st[j]? = _
        rw [j2, b4, List.getElem?_append_left (by rw [flat_length, ← hn']; exact hi)]
  refine ⟨⟨_, _, .exchange hprep hpost⟩, ?_, ?_⟩
  · intro hf
    cases hf with
    | prep h => rw [h] at hprep; simp at hprep
    | post h1 h2 =>
      rw [h1, Option.some.injEq, Prod.mk.injEq] at hprep
      rw [hprep.1] at h2
      rw [h2] at hpost
      simp at hpost
  · intro o s'' hs
    cases hs with
    | exchange h1 h2 =>
      rw [h1, Option.some.injEq, Prod.mk.injEq] at hprep
      rw [hprep.1, hpost, Option.some.injEq] at h2
      rw [hprep.2, ← h2]
      refine ⟨⟨by simp [hsent], ?_⟩, hrel⟩
      intro p hp
      rw [hsent, List.getD_eq_getElem?_getD, List.getElem?_map, List.getElem?_range hp]
      simp only [Option.map_some, Option.getD_some]
      rw [stored_load, hb.cont p hp, Multiset.filter_coe]

/-- every allowed operation -/
theorem good {e : Env K} (hg : e.g.Ok) {a : Abs K} {s : State K} (h : Rel e a s) {i : In K} (ha : Allowed e a i) :
    Good e a s i := by
  cases i with
  | inject ps => exact good_inject hg h ha
  | push mv => exact good_push hg h ha
  | exchange recv => exact good_exchange hg h ha
  | read => exact good_read hg h
  | sizes => exact good_sizes h
  | clear => exact good_clear h

theorem rel_init (e : Env K) : Rel e Abs.init (init e) := by
  have hz : ∀ r, pre (fun _ => ([] : List (Sto K))) r = 0 := pre_nil
  refine ⟨fun _ => [], ⟨?_, ?_, ?_⟩, ⟨?_, ?_, ?_, ?_⟩, ?_⟩
  · show List.replicate (e.g.nBlocks + 1) 0 = _
    rw [eq_comm, List.eq_replicate_iff]
    refine ⟨by simp, ?_⟩
    intro b hb
    obtain ⟨r, _, rfl⟩ := List.mem_map.1 hb
    exact hz r
  · rw [hz]; rfl
  · intro p _
    show (0 : Multiset (Sto K)) = _
    unfold patchOf
    rw [flat_nil_of_pre (hz _)]
    rfl
  · rw [flat_nil_of_pre (hz _)]; rfl
  · have := keys_length e (fun _ => ([] : List (Sto K)))
    rw [hz] at this
    rw [List.length_eq_zero_iff.1 this]
    rfl
  · intro r _ q hq; simp at hq
  · intro h; exact absurd h (by simp [init])
  · intro r _ q hq; simp at hq

theorem run_ok {e : Env K} (hg : e.g.Ok) {l : List (In K × Out K)} {a : Abs K} {s s' : State K} (h : Rel e a s)
    (hr : Run e s l s') (ha : Allows e a (l.map Prod.fst)) : Observes e a l ∧ Rel e (afterAll e a (l.map Prod.fst)) s' := by
  induction hr generalizing a with
  | nil s => exact ⟨trivial, h⟩
  | cons hs _ ih =>
    obtain ⟨ha1, ha2⟩ := ha
    obtain ⟨o1, o2⟩ := (good hg h ha1).2.2 _ _ hs
    obtain ⟨p1, p2⟩ := ih o2 ha2
    exact ⟨⟨o1, p1⟩, p2⟩

end Psc.CudaPrts
