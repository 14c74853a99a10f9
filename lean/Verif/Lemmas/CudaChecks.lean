import Verif.Spec.CudaChecks
import Verif.Lemmas.CudaPrtsExch

/-!
# Self-checks of the particles on the GPU
-/

namespace Psc.CudaPrts

open Psc.Cuda

variable {K : Type}

theorem scan_true {f : ℕ → Option Bool} {l : List ℕ} : scan f l = some true ↔ ∀ i ∈ l, f i = some true := by
  induction l with
  | nil => simp [scan]
  | cons i l ih =>
    rw [scan]
    cases hf : f i with
    | none => simp [hf]
    | some b => cases b <;> simp [hf, ih]

theorem scanPatches_true {f : ℕ → ℕ → Option Bool} {n : ℕ} {sz : List ℕ} {p off : ℕ} :
    scanPatches f n (sz.zipIdx p) off = some true ↔
      off + sz.sum = n ∧ ∀ (r k m : ℕ), sz[r]? = some m → k < m → f (p + r) (off + (sz.take r).sum + k) = some true := by
  induction sz generalizing p off with
  | nil => simp [scanPatches]
  | cons a sz ih =>
    rw [List.zipIdx_cons, scanPatches]
    have h0 : (∀ i ∈ List.range' off a, f p i = some true) ↔ ∀ k < a, f p (off + k) = some true := by
      constructor
      · intro h k hk
        exact h _ (List.mem_range'_1.2 ⟨by omega, by omega⟩)
      · intro h i hi
        obtain ⟨h1, h2⟩ := List.mem_range'_1.1 hi
        have := h (i - off) (by omega)
        rwa [Nat.add_sub_cancel' h1] at this
    have h1 : ((scan (f p) (List.range' off a)).bind fun ok =>
        if ok then scanPatches f n (sz.zipIdx (p + 1)) (off + a) else some false) = some true ↔
        scan (f p) (List.range' off a) = some true ∧ scanPatches f n (sz.zipIdx (p + 1)) (off + a) = some true := by
      cases scan (f p) (List.range' off a) with
      | none => simp
      | some b => cases b <;> simp
    refine h1.trans ?_
    rw [scan_true, h0, ih, List.sum_cons, ← Nat.add_assoc]
    constructor
    · rintro ⟨h2, h3, h4⟩
      refine ⟨h3, fun r k m hr hk => ?_⟩
      cases r with
      | zero =>
        rw [List.getElem?_cons_zero, Option.some.injEq] at hr
        have := h2 k (by omega)
        simpa using this
      | succ r =>
        have := h4 r k m (by simpa using hr) hk
        rw [List.take_succ_cons, List.sum_cons, ← Nat.add_assoc off]
        rwa [show p + 1 + r = p + (r + 1) by omega] at this
    · rintro ⟨h3, h4⟩
      refine ⟨fun k hk => ?_, h3, fun r k m hr hk => ?_⟩
      · have := h4 0 k a (by simp) hk
        simpa using this
      · have := h4 (r + 1) k m (by simpa using hr) hk
        rw [List.take_succ_cons, List.sum_cons, ← Nat.add_assoc off] at this
        rwa [show p + 1 + r = p + (r + 1) by omega]

variable [Field K] [LinearOrder K] [IsStrictOrderedRing K] [FloorRing K]

theorem ofBlock_iff {e : Env K} (hg : e.g.Ok) {p b : ℕ} {x : R3 K} : blockIndex e x p = some b ↔ OfBlock e p b x := by
  constructor
  · intro h
    have hin := inPatch_of_blockIndex hg h
    obtain ⟨h1, h2⟩ := blockPos_some hg hin
    refine ⟨fun d => (cell e x d).toNat / e.g.bs d, h2, ?_, fun d => ?_⟩
    · unfold blockIndex at h
      rw [h1, Option.map_some, Option.some.injEq] at h
      exact h.symm
    · have hc := (inPatch_iff e x).1 hin d
      have h0 := hg.pos d
      have e1 : (cell e x d).toNat / e.g.bs d * e.g.bs d ≤ (cell e x d).toNat := Nat.div_mul_le_self _ _
      have e2 : (cell e x d).toNat + 1 ≤ ((cell e x d).toNat / e.g.bs d + 1) * e.g.bs d := by
        have := Nat.lt_succ_iff.2 (le_refl ((cell e x d).toNat / e.g.bs d))
        rw [Nat.div_lt_iff_lt_mul h0] at this
        exact this
      have f1 : (cell e x d : K) ≤ x d * e.dxi d := Int.floor_le _
      have f2 : x d * e.dxi d < (cell e x d : K) + 1 := Int.lt_floor_add_one _
      have f3 : ((cell e x d).toNat : ℤ) = cell e x d := Int.toNat_of_nonneg hc.1
      have f4 : (((cell e x d).toNat : ℕ) : K) = (cell e x d : K) := by
        rw [← Int.cast_natCast, f3]
      rw [← f4] at f1 f2
      refine ⟨le_trans ?_ f1, lt_of_lt_of_le f2 ?_⟩
      · exact_mod_cast e1
      · exact_mod_cast e2
  · rintro ⟨c, h1, h2, h3⟩
    have hc : ∀ d, 0 ≤ cell e x d ∧ (cell e x d).toNat / e.g.bs d = c d := by
      intro d
      obtain ⟨h4, h5⟩ := h3 d
      have g1 : ((c d * e.g.bs d : ℕ) : ℤ) ≤ cell e x d := by
        unfold cell Psc.Bndp.cellPosition
        rw [Int.le_floor, Int.cast_natCast]
        exact h4
      have g2 : cell e x d < (((c d + 1) * e.g.bs d : ℕ) : ℤ) := by
        unfold cell Psc.Bndp.cellPosition
        rw [Int.floor_lt, Int.cast_natCast]
        exact h5
      have g0 : 0 ≤ cell e x d := by
        have : (0 : ℤ) ≤ ((c d * e.g.bs d : ℕ) : ℤ) := Int.natCast_nonneg _
        omega
      refine ⟨g0, Nat.div_eq_of_lt_le ?_ ?_⟩
      · generalize c d * e.g.bs d = m at *; omega
      · generalize (c d + 1) * e.g.bs d = m at *; omega
    have hp : blockPos e.g (cell e x) = some c := by
      unfold blockPos
      rw [if_pos fun d => ⟨(hc d).1, by rw [(hc d).2]; exact h1 d⟩]
      exact congrArg some (funext fun d => (hc d).2)
    unfold blockIndex
    rw [hp, h2]
    rfl

theorem ofBlock_patch {e : Env K} {p b : ℕ} {x : R3 K} (h : OfBlock e p b x) : b / e.g.bpp = p := by
  obtain ⟨c, h1, h2, _⟩ := h
  have := congrArg Prod.fst (posOf_blockNo e.g.bMx (p := p) (h1 0) (h1 1) (h1 2))
  simp only [posOf] at this
  rw [Nat.div_div_eq_div_mul, Nat.div_div_eq_div_mul, ← Nat.mul_assoc] at this
  rw [h2]
  exact this

theorem ofBlock_inPatch {e : Env K} (hg : e.g.Ok) {x : R3 K} {p : ℕ} : (∃ b, blockIndex e x p = some b) ↔ InPatch e x := by
  constructor
  · rintro ⟨b, h⟩; exact inPatch_of_blockIndex hg h
  · intro h
    obtain ⟨r, h1, _⟩ := blockIndex_some hg h p
    exact ⟨r, h1⟩

theorem orderedOne_true {e : Env K} (hg : e.g.Ok) {s : State K} {b i : ℕ} :
    orderedOne e s b i = some true ↔ ∃ q, IsSeen s i q ∧ ∃ p, OfBlock e p b q.x := by
  have h1 : ∀ q : Sto K, blockIndex e q.x (b / e.g.bpp) = some b ↔ ∃ p, OfBlock e p b q.x := by
    intro q
    rw [ofBlock_iff hg]
    constructor
    · intro h; exact ⟨_, h⟩
    · rintro ⟨p, h⟩
      rwa [ofBlock_patch h]
  unfold orderedOne IsSeen
  cases hn : s.need with
  | false =>
    simp only [Bool.false_eq_true, if_false, Option.map_eq_some_iff, decide_eq_true_eq, h1]
  | true =>
    simp only [if_true, Option.map_eq_some_iff, Option.bind_eq_some_iff, decide_eq_true_eq, h1]

/-- the loop over blocks from `b` on -/
theorem orderedFrom_true {e : Env K} {s : State K} {m b off : ℕ} :
    orderedFrom e s (List.range' b m) off = some true ↔
      ∃ f : ℕ → ℕ, f b = off ∧ f (b + m) = s.n ∧ ∀ r, b ≤ r → r < b + m →
        s.off[r]? = some (f r) ∧ s.off[r + 1]? = some (f (r + 1)) ∧ f r ≤ f (r + 1) ∧
          ∀ i, f r ≤ i → i < f (r + 1) → orderedOne e s r i = some true := by
  induction m generalizing b off with
  | zero =>
    simp only [List.range'_zero, orderedFrom, Option.some.injEq, decide_eq_true_eq, Nat.add_zero]
    constructor
    · intro h
      exact ⟨fun _ => off, rfl, h, fun r h1 h2 => by omega⟩
    · rintro ⟨f, h1, h2, _⟩
      omega
  | succ m ih =>
    rw [List.range'_succ, orderedFrom]
    constructor
    · intro h
      obtain ⟨ob, h1, h⟩ := Option.bind_eq_some_iff.1 h
      obtain ⟨oe, h2, h⟩ := Option.bind_eq_some_iff.1 h
      split_ifs at h with c1 c2
      · simp at h
      · simp at h
      · obtain ⟨ok, h3, h⟩ := Option.bind_eq_some_iff.1 h
        cases ok with
        | false => simp at h
        | true =>
          rw [if_pos rfl] at h
          obtain ⟨f, g1, g2, g3⟩ := ih.1 h
          have c2 : ob = off := not_not.1 c2
          refine ⟨fun r => if r = b then off else f r, if_pos rfl, ?_, ?_⟩
          · beta_reduce
            rw [if_neg (by omega), ← g2]; congr 1; omega
          · intro r hr hr'
            by_cases hrb : r = b
            · subst hrb
              beta_reduce
              have hoe : f (r + 1) = oe := by omega
              rw [if_pos rfl, if_neg (by omega), hoe]
              refine ⟨by rw [h1, c2], h2, by omega, fun i hi hi' => scan_true.1 h3 i (List.mem_range'_1.2 ⟨by omega, by omega⟩)⟩
            · beta_reduce
              rw [if_neg hrb, if_neg (by omega)]
              exact g3 r (by omega) (by omega)
    · rintro ⟨f, g1, g2, g3⟩
      obtain ⟨h1, h2, h3, h4⟩ := g3 b le_rfl (by omega)
      rw [h1, Option.bind_some, h2, Option.bind_some, if_neg (by omega), if_neg (by omega)]
      have h5 : scan (orderedOne e s b) (List.range' (f b) (f (b + 1) - f b)) = some true := by
        refine scan_true.2 fun i hi => ?_
        obtain ⟨k1, k2⟩ := List.mem_range'_1.1 hi
        exact h4 i k1 (by omega)
      rw [h5, Option.bind_some, if_pos rfl]
      exact ih.2 ⟨f, by omega, by rw [← g2]; congr 1; omega, fun r hr hr' => g3 r (by omega) (by omega)⟩

theorem checkOrdered_true {e : Env K} (hg : e.g.Ok) {s : State K} : checkOrdered e s = some true ↔ IsOrdered e s := by
  unfold checkOrdered IsOrdered
  rw [List.range_eq_range', orderedFrom_true]
  simp only [Nat.zero_add, Nat.zero_le, true_implies, orderedOne_true hg]

theorem inPatchOne_true {e : Env K} (hg : e.g.Ok) {s : State K} {p i : ℕ} (hp : p < e.g.nPatches) :
    inPatchOne e s p i = some true ↔ ∃ q, s.storage[i]? = some q ∧ InPatch e q.x := by
  unfold inPatchOne
  rw [Option.map_eq_some_iff]
  refine exists_congr fun q => and_congr_right fun _ => ?_
  by_cases h : InPatch e q.x
  · obtain ⟨r, h1, h2, _⟩ := blockIndex_some hg h p
    have := h2 hp
    simp only [h1, h, decide_eq_true_eq, iff_true]
    omega
  · simp [blockIndex_none hg h, h]

theorem bidxIdOne_true {e : Env K} (hg : e.g.Ok) {s : State K} {p i : ℕ} :
    bidxIdOne e s p i = some true ↔
      ∃ q b, s.storage[i]? = some q ∧ s.idx[i]? = some b ∧ s.id[i]? = some i ∧ OfBlock e p b q.x := by
  unfold bidxIdOne
  rw [Option.bind_eq_some_iff]
  refine exists_congr fun q => ?_
  rw [Option.bind_eq_some_iff]
  constructor
  · rintro ⟨h1, b, h2, h⟩
    split_ifs at h with c
    · obtain ⟨j, h3, h4⟩ := Option.map_eq_some_iff.1 h
      have := of_decide_eq_true h4
      subst this
      exact ⟨b, h1, h2, h3, (ofBlock_iff hg).1 c⟩
    · simp at h
  · rintro ⟨b, h1, h2, h3, h4⟩
    refine ⟨h1, b, h2, ?_⟩
    rw [if_pos ((ofBlock_iff hg).2 h4), h3]
    simp

theorem sizeByPatch_length {e : Env K} {s : State K} {sz : List ℕ} (h : sizeByPatch e s = some sz) :
    sz.length = e.g.nPatches := by
  unfold sizeByPatch at h
  have : ∀ (l : List ℕ) (f : ℕ → Option ℕ) (u : List ℕ), l.mapM f = some u → u.length = l.length := by
    intro l f
    induction l with
    | nil => intro u h; rw [List.mapM_nil] at h; cases h; rfl
    | cons a l ih =>
      intro u h
      rw [List.mapM_cons] at h
      obtain ⟨y, _, h⟩ := Option.bind_eq_some_iff.1 h
      obtain ⟨ys, h2, h⟩ := Option.bind_eq_some_iff.1 h
      cases h
      simp [ih ys h2]
  rw [this _ _ _ h, List.length_range]

theorem checkPatches_true {e : Env K} {s : State K} {sz : List ℕ} (h : sizeByPatch e s = some sz)
    {f : ℕ → ℕ → Option Bool} {P : ℕ → ℕ → Prop} (hP : ∀ p i, p < e.g.nPatches → (f p i = some true ↔ P p i)) :
    ((sizeByPatch e s).bind fun sz => scanPatches f s.n sz.zipIdx 0) = some true ↔
      sz.sum = s.n ∧ ∀ (p k m : ℕ), sz[p]? = some m → k < m → P p ((sz.take p).sum + k) := by
  rw [h, Option.bind_some, scanPatches_true]
  simp only [Nat.zero_add]
  refine and_congr_right fun _ => forall_congr' fun p => forall_congr' fun k => forall_congr' fun m => ?_
  refine imp_congr_right fun hm => imp_congr_right fun _ => hP _ _ ?_
  rw [← sizeByPatch_length h]
  exact (List.getElem?_eq_some_iff.1 hm).1

/-! ## reachable states -/

theorem sizes_rel {e : Env K} {a : Abs K} {s : State K} {B : ℕ → List (Sto K)} (hb : Base e a B s) :
    sizeByPatch e s = some ((List.range e.g.nPatches).map fun p => (patchOf e B p).length) := by
  unfold sizeByPatch
  refine mapM_some fun p hp => ?_
  have hp := List.mem_range.1 hp
  unfold patchRange
  rw [hb.off_patch (by omega), hb.off_patch (by omega)]
  simp only [Option.bind_eq_bind, Option.bind_some, Option.map_some, pre_succ, Nat.add_sub_cancel_left]

/-- block ranges and what they see -/
theorem ordered_rel {e : Env K} (hg : e.g.Ok) {a : Abs K} {s : State K} (h : Rel e a s) (hph : a.ph ≠ .pushed) :
    IsOrdered e s := by
  obtain ⟨B, hb, hp⟩ := h
  have hoff : ∀ r ≤ e.g.nBlocks, s.off[r]? = some (pre B r) := by
    intro r hr
    rw [hb.off, List.getElem?_map, List.getElem?_range (by omega), Option.map_some]
  refine ⟨pre B, pre_zero B, hb.n.symm, fun b hbb => ⟨hoff b (by omega), hoff (b + 1) (by omega), pre_mono B (by omega), ?_⟩⟩
  intro i hi hi'
  have hlt : i < s.n := by
    rw [hb.n]
    exact lt_of_lt_of_le hi' (pre_mono B (by omega))
  obtain ⟨k, rfl⟩ : ∃ k, i = pre B b + k := ⟨i - pre B b, by omega⟩
  have hk : k < (B b).length := by rw [pre_succ] at hi'; omega
  have hget := flat_get B hbb hk
  have hq : (B b)[k]? = some (B b)[k] := List.getElem?_eq_getElem hk
  have hmem : (B b)[k] ∈ B b := List.getElem_mem hk
  have fin : Blocks e B → ∃ p, OfBlock e p b (B b)[k].x := fun hB => ⟨_, (ofBlock_iff hg).1 (hB b hbb _ hmem)⟩
  cases hc : a.ph with
  | fresh =>
    rw [hc] at hp
    obtain ⟨ho, hB⟩ := hp
    refine ⟨(B b)[k], ?_, fin hB⟩
    have hn : s.need = false := by
      cases hnn : s.need with
      | false => rfl
      | true => have := ho.need hnn; omega
    rw [IsSeen, hn, if_neg (by simp), ho.storage, hget, hq]
  | pushed => exact absurd hc hph
  | exchanged =>
    rw [hc] at hp
    refine ⟨(B b)[k], ?_, fin hp.blocks⟩
    rw [IsSeen, hp.need, if_pos rfl]
    obtain ⟨j, h1, h2⟩ := hp.view _ hlt
    exact ⟨j, h1, by rw [h2, hget, hq]⟩
  | cleared =>
    rw [hc] at hp
    have := hp.2
    omega

theorem mem_cont {e : Env K} {a : Abs K} {s : State K} {B : ℕ → List (Sto K)} (hb : Base e a B s) {p : ℕ} (hp : p < e.g.nPatches)
    {q : Sto K} : q ∈ a.c p ↔ q ∈ patchOf e B p := by
  rw [hb.cont p hp, Multiset.mem_coe]

theorem pre_eq_take {α : Type} (C : ℕ → List α) {N p : ℕ} (hp : p ≤ N) :
    (((List.range N).map fun p => (C p).length).take p).sum = pre C p := by
  rw [← List.map_take, List.take_range, Nat.min_eq_left hp]
  rfl

theorem inPatch_rel {e : Env K} (hg : e.g.Ok) {a : Abs K} {s : State K} (h : Rel e a s) (hph : a.ph ≠ .exchanged) :
    checkInPatch e s = some true ↔ ∀ p < e.g.nPatches, ∀ q ∈ a.c p, InPatch e q.x := by
  obtain ⟨B, hb, hp⟩ := h
  unfold checkInPatch
  rw [checkPatches_true (sizes_rel hb) (P := fun p i => ∃ q, s.storage[i]? = some q ∧ InPatch e q.x)
    fun p i hp => inPatchOne_true hg hp]
  have hsum : ((List.range e.g.nPatches).map fun p => (patchOf e B p).length).sum = s.n := hb.n_patch.symm
  have hget : ∀ p < e.g.nPatches, ∀ k (hk : k < (patchOf e B p).length),
      s.storage[pre (patchOf e B) p + k]? = some (patchOf e B p)[k] := by
    intro p hp' k hk
    have : s.storage = flat B e.g.nBlocks := by
      have hle : pre (patchOf e B) (p + 1) ≤ s.n := by rw [hb.n_patch]; exact pre_mono _ hp'
      rw [pre_succ] at hle
      cases hc : a.ph with
      | fresh => rw [hc] at hp; exact hp.1.storage
      | pushed => rw [hc] at hp; exact hp.storage
      | exchanged => exact absurd hc hph
      | cleared => rw [hc] at hp; have := hp.2; omega
    rw [this, flat_patch, flat_get (patchOf e B) hp' hk, List.getElem?_eq_getElem hk]
  constructor
  · rintro ⟨_, h2⟩ p hp' q hq
    obtain ⟨k, hk, rfl⟩ := List.getElem_of_mem ((mem_cont hb hp').1 hq)
    obtain ⟨q', h3, h4⟩ := h2 p k (patchOf e B p).length (by
      rw [List.getElem?_map, List.getElem?_range hp', Option.map_some]) hk
    rw [pre_eq_take _ (by omega), hget p hp' k hk, Option.some.injEq] at h3
    rwa [h3]
  · intro h2
    refine ⟨hsum, fun p k m hm hk => ?_⟩
    have hp' : p < e.g.nPatches := by
      have := (List.getElem?_eq_some_iff.1 hm).1
      simpa using this
    rw [List.getElem?_map, List.getElem?_range hp', Option.map_some, Option.some.injEq] at hm
    subst hm
    rw [pre_eq_take _ (by omega)]
    exact ⟨_, hget p hp' k hk, h2 p hp' _ ((mem_cont hb hp').2 (List.getElem_mem hk))⟩

theorem afterPush_rel {e : Env K} (hg : e.g.Ok) {a : Abs K} {s : State K} (h : Rel e a s) (hph : a.ph = .pushed) :
    ∃ r, checkAfterPush e s = some r ∧
      (r = true ↔ ∀ p < e.g.nPatches, 0 < p → ∀ q ∈ a.c p, InPatch e q.x) := by
  obtain ⟨B, hb, hp⟩ := h
  rw [hph] at hp
  have hp : Ordered e B s := hp
  have hone : ∀ p < e.g.nPatches, ∀ k (hk : k < (patchOf e B p).length),
      afterPushOne e s p (pre (patchOf e B) p + k) =
        some (decide (code e p (patchOf e B p)[k].x = (blockIndex e (patchOf e B p)[k].x p).getD e.g.nBlocks)) := by
    intro p hp' k hk
    unfold afterPushOne
    rw [hp.storage, flat_patch, flat_get (patchOf e B) hp' hk, List.getElem?_eq_getElem hk, Option.bind_some, hp.idx, keys_patch]
    have := flat_get (fun p => (patchOf e B p).map fun q => code e p q.x) (k := k) hp' (by simpa using hk)
    rw [show pre (fun p => (patchOf e B p).map fun q => code e p q.x) p = pre (patchOf e B) p from
      pre_congr (by simp)] at this
    rw [this, List.getElem?_map, List.getElem?_eq_getElem hk]
    rfl
  have hpatch : ∀ p ∈ List.range e.g.nPatches, ((patchRange e s.off p).bind fun r =>
      (List.range' r.1 r.2).mapM (afterPushOne e s p)) = some ((patchOf e B p).map fun q =>
        decide (code e p q.x = (blockIndex e q.x p).getD e.g.nBlocks)) := by
    intro p hp'
    have hp' := List.mem_range.1 hp'
    unfold patchRange
    rw [hb.off_patch (by omega), hb.off_patch (by omega)]
    simp only [Option.bind_eq_bind, Option.bind_some, pre_succ, Nat.add_sub_cancel_left]
    have : (List.range' (pre (patchOf e B) p) (patchOf e B p).length).mapM (afterPushOne e s p) =
        some ((List.range' (pre (patchOf e B) p) (patchOf e B p).length).map fun i => (afterPushOne e s p i).getD false) := by
      refine mapM_some fun i hi => ?_
      obtain ⟨h1, h2⟩ := List.mem_range'_1.1 hi
      obtain ⟨k, rfl⟩ : ∃ k, i = pre (patchOf e B) p + k := ⟨i - pre (patchOf e B) p, by omega⟩
      rw [hone p hp' k (by omega)]
      rfl
    rw [this]
    congr 1
    apply List.ext_getElem?
    intro k
    by_cases hk : k < (patchOf e B p).length
    · rw [List.getElem?_map, List.getElem?_map, List.getElem?_eq_getElem hk, List.getElem?_range' hk, Option.map_some,
        Option.map_some, Nat.one_mul, hone p hp' k hk]
      rfl
    · rw [List.getElem?_eq_none (by simpa using hk), List.getElem?_eq_none (by simpa using hk)]
  refine ⟨_, by unfold checkAfterPush; rw [mapM_some hpatch]; rfl, ?_⟩
  rw [List.all_eq_true]
  constructor
  · intro h p hp' h0 q hq
    by_contra hc
    have := h (decide (code e p q.x = (blockIndex e q.x p).getD e.g.nBlocks)) (List.mem_flatten.2 ⟨_, List.mem_map.2
      ⟨p, List.mem_range.2 hp', rfl⟩, List.mem_map.2 ⟨q, (mem_cont hb hp').1 hq, rfl⟩⟩)
    rw [code_out hc, blockIndex_none hg hc] at this
    have := of_decide_eq_true this
    rw [Option.getD_none] at this
    omega
  · intro h r hr
    obtain ⟨l, hl, hr⟩ := List.mem_flatten.1 hr
    obtain ⟨p, hp', rfl⟩ := List.mem_map.1 hl
    have hp' := List.mem_range.1 hp'
    obtain ⟨q, hq, rfl⟩ := List.mem_map.1 hr
    refine decide_eq_true ?_
    by_cases hc : InPatch e q.x
    · obtain ⟨b, h1, _⟩ := blockIndex_some hg hc p
      rw [code_in hc h1, h1]
      rfl
    · have h0 : p = 0 := by
        by_contra h0
        exact hc (h p hp' (by omega) q ((mem_cont hb hp').2 hq))
      rw [code_out hc, blockIndex_none hg hc, h0]
      rfl

end Psc.CudaPrts
