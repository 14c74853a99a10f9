import Mathlib.Data.List.Perm.Basic
import Mathlib.Data.List.Sort
import Mathlib.Algebra.BigOperators.Group.List.Basic
import Mathlib.Tactic.Linarith
import Verif.Model.CudaPrts

/-!
# Lists split into buckets, writes and stable sort
-/

namespace Psc.CudaPrts

/-! ## buckets -/

/-- elements before bucket `r` -/
def pre {α : Type} (B : ℕ → List α) (r : ℕ) : ℕ := ((List.range r).map fun i => (B i).length).sum

/-- the first `N` buckets one after the other -/
def flat {α : Type} (B : ℕ → List α) (N : ℕ) : List α := (List.range N).flatMap B

section
variable {α β : Type}

theorem pre_zero (B : ℕ → List α) : pre B 0 = 0 := rfl

theorem pre_succ (B : ℕ → List α) (r : ℕ) : pre B (r + 1) = pre B r + (B r).length := by
  simp [pre, List.range_succ]

theorem flat_succ (B : ℕ → List α) (r : ℕ) : flat B (r + 1) = flat B r ++ B r := by
  simp [flat, List.range_succ, List.flatMap_append]

theorem flat_zero (B : ℕ → List α) : flat B 0 = [] := rfl

theorem flat_length (B : ℕ → List α) (N : ℕ) : (flat B N).length = pre B N := by
  induction N with
  | zero => rfl
  | succ N ih => rw [flat_succ, List.length_append, ih, pre_succ]

theorem pre_mono (B : ℕ → List α) {r s : ℕ} (h : r ≤ s) : pre B r ≤ pre B s := by
  induction s, h using Nat.le_induction with
  | base => exact le_rfl
  | succ s _ ih => rw [pre_succ]; omega

theorem pre_congr {B : ℕ → List α} {C : ℕ → List β} {N : ℕ} (h : ∀ r < N, (B r).length = (C r).length) :
    pre B N = pre C N := by
  unfold pre
  congr 1
  exact List.map_congr_left fun r hr => h r (List.mem_range.1 hr)

theorem flat_congr {B C : ℕ → List α} {N : ℕ} (h : ∀ r < N, B r = C r) : flat B N = flat C N := by
  unfold flat
  exact List.flatMap_congr fun r hr => h r (List.mem_range.1 hr)

theorem flat_map (f : α → β) (B : ℕ → List α) (N : ℕ) : (flat B N).map f = flat (fun r => (B r).map f) N := by
  simp [flat, List.map_flatMap]

/-- element `k` of bucket `r` -/
theorem flat_get (B : ℕ → List α) {N r k : ℕ} (hr : r < N) (hk : k < (B r).length) :
    (flat B N)[pre B r + k]? = (B r)[k]? := by
  induction N with
  | zero => omega
  | succ N ih =>
    rw [flat_succ]
    rcases Nat.lt_succ_iff_lt_or_eq.1 hr with h | rfl
    · rw [List.getElem?_append_left, ih h]
      rw [flat_length]
      have := pre_mono B (Nat.succ_le_of_lt h)
      rw [pre_succ] at this
      omega
    · rw [List.getElem?_append_right (by rw [flat_length]; omega), flat_length]
      congr 1
      omega

/-- every element is in a bucket -/
theorem flat_index (B : ℕ → List α) {N i : ℕ} (hi : i < pre B N) : ∃ r k, r < N ∧ k < (B r).length ∧ i = pre B r + k := by
  induction N with
  | zero => simp [pre_zero] at hi
  | succ N ih =>
    rw [pre_succ] at hi
    by_cases h : i < pre B N
    · obtain ⟨r, k, h1, h2, h3⟩ := ih h
      exact ⟨r, k, by omega, h2, h3⟩
    · exact ⟨N, i - pre B N, by omega, by omega, by omega⟩

/-- a list is the buckets if its elements are -/
theorem eq_flat {l : List α} {B : ℕ → List α} {N : ℕ} (hl : l.length = pre B N)
    (h : ∀ r k : ℕ, r < N → k < (B r).length → l[pre B r + k]? = (B r)[k]?) : l = flat B N := by
  apply List.ext_getElem?
  intro i
  by_cases hi : i < pre B N
  · obtain ⟨r, k, h1, h2, rfl⟩ := flat_index B hi
    rw [h r k h1 h2, flat_get B h1 h2]
  · rw [List.getElem?_eq_none (by omega), List.getElem?_eq_none (by rw [flat_length]; omega)]

theorem mem_flat {B : ℕ → List α} {N : ℕ} {x : α} : x ∈ flat B N ↔ ∃ r < N, x ∈ B r := by
  simp [flat, List.mem_flatMap]

/-- the elements of the buckets from `r` on -/
theorem flat_drop_take (B : ℕ → List α) {N r k : ℕ} (h : r + k ≤ N) :
    ((flat B N).drop (pre B r)).take (pre B (r + k) - pre B r) = flat (fun i => B (r + i)) k := by
  have h1 : flat B N = flat B r ++ flat (fun i => B (r + i)) (N - r) := by
    obtain ⟨m, rfl⟩ : ∃ m, N = r + m := ⟨N - r, by omega⟩
    rw [Nat.add_sub_cancel_left]
    clear h
    induction m with
    | zero => simp [flat_zero]
    | succ m ih => rw [← Nat.add_assoc, flat_succ, ih, flat_succ, List.append_assoc]
  have h2 : ∀ m, pre B (r + m) = pre B r + pre (fun i => B (r + i)) m := by
    intro m
    induction m with
    | zero => simp [pre_zero]
    | succ m ih => rw [← Nat.add_assoc, pre_succ, ih, pre_succ]; omega
  have h3 : flat (fun i => B (r + i)) (N - r) = flat (fun i => B (r + i)) k ++ flat (fun i => B (r + (k + i))) (N - r - k) := by
    obtain ⟨m, hm⟩ : ∃ m, N - r = k + m := ⟨N - r - k, by omega⟩
    rw [hm, Nat.add_sub_cancel_left]
    clear hm h1
    induction m with
    | zero => simp [flat_zero]
    | succ m ih => rw [← Nat.add_assoc, flat_succ, ih, flat_succ, List.append_assoc]
  rw [h1, ← flat_length B r, List.drop_left, flat_length, h2, Nat.add_sub_cancel_left, h3, ← flat_length, List.take_left]

/-- buckets of buckets -/
theorem flat_flat (B : ℕ → List α) (n m : ℕ) : flat B (n * m) = flat (fun p => flat (fun r => B (p * m + r)) m) n := by
  induction n with
  | zero => simp [flat_zero]
  | succ n ih =>
    rw [flat_succ, ← ih, Nat.add_mul, Nat.one_mul]
    generalize n * m = a
    clear ih
    generalize m = k
    induction k with
    | zero => simp [flat_zero]
    | succ k ih => rw [← Nat.add_assoc, flat_succ, ih, flat_succ, List.append_assoc]

theorem pre_mul (B : ℕ → List α) (n m : ℕ) : pre B (n * m) = pre (fun p => flat (fun r => B (p * m + r)) m) n := by
  rw [← flat_length, flat_flat, flat_length]

/-! ## sorted lists -/

/-- a list sorted by key is split into its keys -/
theorem sorted_flat {l : List (ℕ × α)} (h : l.Pairwise fun a b => a.1 ≤ b.1) (N : ℕ) :
    l = flat (fun r => l.filter fun a => a.1 = r) N ++ l.filter fun a => N ≤ a.1 := by
  have key : ∀ (l : List (ℕ × α)) (N : ℕ), l.Pairwise (fun a b => a.1 ≤ b.1) →
      l.filter (fun a => decide (N ≤ a.1)) = l.filter (fun a => decide (a.1 = N)) ++ l.filter (fun a => decide (N + 1 ≤ a.1)) := by
    intro l N h
    induction l with
    | nil => rfl
    | cons a l ih =>
      have h' := List.pairwise_cons.1 h
      rcases lt_trichotomy a.1 N with hlt | heq | hgt
      · rw [List.filter_cons_of_neg (by simp; omega), List.filter_cons_of_neg (by simp; omega),
          List.filter_cons_of_neg (by simp; omega), ih h'.2]
      · rw [List.filter_cons_of_pos (by simp; omega), List.filter_cons_of_pos (by simp; omega),
          List.filter_cons_of_neg (by simp; omega), ih h'.2, List.cons_append]
      · have h0 : (a :: l).filter (fun a => decide (a.1 = N)) = [] := by
          rw [List.filter_eq_nil_iff]
          intro b hb
          have : a.1 ≤ b.1 := by
            rcases List.mem_cons.1 hb with rfl | hb
            · exact le_rfl
            · exact h'.1 b hb
          simp; omega
        rw [h0, List.nil_append, List.filter_cons_of_pos (by simp; omega), List.filter_cons_of_pos (by simp; omega)]
        congr 1
        refine List.filter_congr fun b hb => ?_
        have := h'.1 b hb
        simp only [decide_eq_decide]
        omega
  induction N with
  | zero => simp [flat_zero]
  | succ N ih =>
    rw [flat_succ, List.append_assoc, ← key l N h]
    exact ih

theorem takeWhile_le {l : List ℕ} (h : l.Pairwise (· ≤ ·)) (v : ℕ) : l.takeWhile (· ≤ v) = l.filter (· ≤ v) := by
  induction l with
  | nil => rfl
  | cons a l ih =>
    have h' := List.pairwise_cons.1 h
    by_cases ha : a ≤ v
    · rw [List.takeWhile_cons_of_pos (by simpa using ha), List.filter_cons_of_pos (by simpa using ha), ih h'.2]
    · rw [List.takeWhile_cons_of_neg (by simpa using ha), List.filter_cons_of_neg (by simpa using ha)]
      symm
      rw [List.filter_eq_nil_iff]
      intro b hb
      have := h'.1 b hb
      simp; omega

/-- offsets by `upper_bound` -/
theorem upperBound_sorted {l : List (ℕ × α)} (h : l.Pairwise fun a b => a.1 ≤ b.1) (v : ℕ) :
    upperBound (l.map Prod.fst) v = pre (fun r => l.filter fun a => a.1 = r) (v + 1) := by
  have hs : (l.map Prod.fst).Pairwise (· ≤ ·) := List.pairwise_map.2 h
  unfold upperBound
  rw [takeWhile_le hs, List.filter_map, List.length_map]
  conv_lhs => rw [sorted_flat h (v + 1)]
  rw [List.filter_append, List.length_append, ← flat_length]
  have h1 : List.filter ((fun x => decide (x ≤ v)) ∘ Prod.fst) (l.filter fun a => v + 1 ≤ a.1) = [] := by
    rw [List.filter_eq_nil_iff]
    intro a ha
    have := (List.mem_filter.1 ha).2
    simp at this ⊢
    omega
  have h2 : List.filter ((fun x => decide (x ≤ v)) ∘ Prod.fst) (flat (fun r => l.filter fun a => a.1 = r) (v + 1)) =
      flat (fun r => l.filter fun a => a.1 = r) (v + 1) := by
    rw [List.filter_eq_self]
    intro a ha
    obtain ⟨r, hr, ha⟩ := mem_flat.1 ha
    have := (List.mem_filter.1 ha).2
    simp at this ⊢
    omega
  rw [h1, h2]
  rfl

/-! ## writes -/

theorem write_nil (l : List α) : write l [] = some l := rfl

theorem write_cons (l : List α) (w : ℕ × α) (ws : List (ℕ × α)) (h : w.1 < l.length) :
    write l (w :: ws) = write (l.set w.1 w.2) ws := by
  simp [write, List.foldlM_cons, h]

/-- writes of a function of the index -/
theorem write_spec (f : ℕ → α) : ∀ (ws : List (ℕ × α)) (l : List α), (∀ w ∈ ws, w.1 < l.length ∧ w.2 = f w.1) →
    ∃ l', write l ws = some l' ∧ l'.length = l.length ∧
      ∀ i : ℕ, i < l.length → l'[i]? = if i ∈ ws.map Prod.fst then some (f i) else l[i]? := by
  intro ws
  induction ws with
  | nil => intro l _; exact ⟨l, rfl, rfl, fun i _ => by simp⟩
  | cons w ws ih =>
    intro l h
    obtain ⟨h1, h2⟩ := h w List.mem_cons_self
    rw [write_cons l w ws h1]
    obtain ⟨l', e1, e2, e3⟩ := ih (l.set w.1 w.2) fun v hv => by
      rw [List.length_set]; exact h v (List.mem_cons_of_mem _ hv)
    rw [List.length_set] at e2 e3
    refine ⟨l', e1, e2, fun i hi => ?_⟩
    rw [e3 i hi]
    simp only [List.map_cons, List.mem_cons]
    by_cases hm : i ∈ ws.map Prod.fst
    · simp [hm]
    · by_cases hw : i = w.1
      · subst hw
        simp [hm, h2, h1]
      · simp [hm, hw, List.getElem?_set_ne (Ne.symm hw)]

/-- everything is overwritten -/
theorem write_all (f : ℕ → α) (ws : List (ℕ × α)) (l : List α) (h : ∀ w ∈ ws, w.1 < l.length ∧ w.2 = f w.1)
    (hc : ∀ i < l.length, i ∈ ws.map Prod.fst) : write l ws = some ((List.range l.length).map f) := by
  obtain ⟨l', e1, e2, e3⟩ := write_spec f ws l h
  rw [e1]
  congr 1
  apply List.ext_getElem?
  intro i
  by_cases hi : i < l.length
  · rw [e3 i hi, if_pos (hc i hi), List.getElem?_map, List.getElem?_range hi]
    rfl
  · rw [List.getElem?_eq_none (by omega), List.getElem?_eq_none (by simp; omega)]

/-- writes to different elements can be done in any order -/
theorem write_perm {ws ws' : List (ℕ × α)} (hp : ws.Perm ws') (hn : (ws.map Prod.fst).Nodup) (l : List α) :
    write l ws = write l ws' := by
  induction hp generalizing l with
  | nil => rfl
  | cons x hp ih =>
    rw [List.map_cons, List.nodup_cons] at hn
    by_cases h : x.1 < l.length
    · rw [write_cons _ _ _ h, write_cons _ _ _ h, ih hn.2]
    · simp [write, List.foldlM_cons, h]
  | swap x y l' =>
    simp only [List.map_cons, List.nodup_cons, List.mem_cons, not_or] at hn
    by_cases hx : x.1 < l.length
    · by_cases hy : y.1 < l.length
      · rw [write_cons _ _ _ hy, write_cons _ _ _ hx, write_cons _ _ _ (by simpa using hx),
          write_cons _ _ _ (by simpa using hy), List.set_comm _ _ hn.1.1]
      · rw [write_cons _ _ _ hx]
        simp [write, List.foldlM_cons, hy]
    · by_cases hy : y.1 < l.length
      · rw [write_cons _ _ _ hy]
        simp [write, List.foldlM_cons, hx]
      · simp [write, List.foldlM_cons, hx, hy]
  | trans h1 h2 ih1 ih2 =>
    rw [ih1 hn, ih2 ((h1.map _).nodup_iff.1 hn)]

/-! ## mapM -/

theorem mapM_some {f : α → Option β} {g : α → β} : ∀ {l : List α}, (∀ a ∈ l, f a = some (g a)) →
    l.mapM f = some (l.map g) := by
  intro l
  induction l with
  | nil => intro _; rfl
  | cons a l ih =>
    intro h
    rw [List.mapM_cons, h a List.mem_cons_self, ih fun b hb => h b (List.mem_cons_of_mem _ hb)]
    rfl

/-! ## sorting -/

theorem mapM_mem {f : α → Option β} : ∀ {l : List α} {out : List β}, l.mapM f = some out → ∀ b ∈ out, ∃ a ∈ l, f a = some b := by
  intro l
  induction l with
  | nil =>
    intro out h b hb
    have : some [] = some out := h
    rw [← Option.some.inj this] at hb
    simp at hb
  | cons a l ih =>
    intro out h b hb
    rw [List.mapM_cons] at h
    obtain ⟨c, h1, h⟩ := Option.bind_eq_some_iff.1 h
    obtain ⟨out', h2, h⟩ := Option.bind_eq_some_iff.1 h
    have h3 : c :: out' = out := Option.some.inj h
    rw [← h3, List.mem_cons] at hb
    rcases hb with rfl | hb
    · exact ⟨a, List.mem_cons_self, h1⟩
    · obtain ⟨a', h4, h5⟩ := ih h2 b hb
      exact ⟨a', List.mem_cons_of_mem _ h4, h5⟩

theorem resize_length (z : α) (n : ℕ) (l : List α) : (resize z n l).length = n := by
  simp [resize]; omega

theorem resize_take (z : α) {n m : ℕ} (l : List α) (h : m ≤ l.length) (h' : m ≤ n) : (resize z n l).take m = l.take m := by
  unfold resize
  rw [List.take_append_of_le_length (by simp; omega), List.take_take, min_eq_left h']

/-- sorting by key, seen through the array that the values point to -/
theorem sortByKey_view {keys : List ℕ} {st : List α} (h : keys.length = st.length) :
    ∃ T : List (ℕ × α), T.Perm (keys.zip st) ∧ T.Pairwise (fun a b => a.1 ≤ b.1) ∧
      (sortByKey keys (List.range st.length)).1 = T.map Prod.fst ∧
      (sortByKey keys (List.range st.length)).2.length = st.length ∧
      ∀ i : ℕ, i < st.length → ∃ j, (sortByKey keys (List.range st.length)).2[i]? = some j ∧
        st[j]? = (T.map Prod.snd)[i]? := by
  set S := (keys.zip (List.range st.length)).insertionSort fun a b => a.1 ≤ b.1 with hS
  have hp : S.Perm (keys.zip (List.range st.length)) := List.perm_insertionSort _ _
  have hs : S.Pairwise fun a b => a.1 ≤ b.1 := by
    haveI : Std.Total (fun a b : ℕ × ℕ => a.1 ≤ b.1) := ⟨fun a b => Nat.le_total _ _⟩
    haveI : IsTrans (ℕ × ℕ) (fun a b : ℕ × ℕ => a.1 ≤ b.1) := ⟨fun _ _ _ h1 h2 => Nat.le_trans h1 h2⟩
    exact List.pairwise_insertionSort _ _
  have hlen : S.length = st.length := by rw [hp.length_eq]; simp [h]
  have hr : ∀ a ∈ S, a.2 < st.length := by
    intro a ha
    have := List.of_mem_zip (hp.mem_iff.1 ha)
    exact List.mem_range.1 this.2
  have e2 : (sortByKey keys (List.range st.length)).2 = S.map Prod.snd := by
    simp only [sortByKey]
    rw [List.drop_eq_nil_of_le (by simp [h]), List.append_nil]
  rcases Nat.eq_zero_or_pos st.length with h0 | h0
  · have hS0 : S = [] := List.length_eq_zero_iff.1 (by omega)
    refine ⟨[], ?_, List.Pairwise.nil, ?_, ?_, fun i hi => by omega⟩
    · rw [List.length_eq_zero_iff.1 h0, List.zip_nil_right]
    · show S.map Prod.fst = _
      rw [hS0]
      rfl
    · rw [e2, hS0, h0]; rfl
  · obtain ⟨z, hz⟩ : ∃ z, z ∈ st := List.exists_mem_of_length_pos h0
    let f : ℕ × ℕ → ℕ × α := fun a => (a.1, (st[a.2]?).getD z)
    have hf : (keys.zip (List.range st.length)).map f = keys.zip st := by
      apply List.ext_getElem?
      intro i
      rw [List.getElem?_map]
      by_cases hi : i < st.length
      · rw [List.getElem?_zip_eq_some (z := (keys[i], i)) |>.2 ⟨by simp, by simp [hi]⟩]
        rw [List.getElem?_zip_eq_some (z := (keys[i], st[i])) |>.2 ⟨by simp, by simp⟩]
        simp [f, hi]
      · rw [List.getElem?_eq_none (by simp; omega), List.getElem?_eq_none (by simp; omega)]
        rfl
    refine ⟨S.map f, ?_, ?_, ?_, ?_, ?_⟩
    · rw [← hf]; exact hp.map f
    · rw [List.pairwise_map]; exact hs
    · show S.map Prod.fst = _
      rw [List.map_map]; rfl
    · rw [e2, List.length_map, hlen]
    · intro i hi
      have hi' : i < S.length := by omega
      refine ⟨S[i].2, ?_, ?_⟩
      · rw [e2, List.getElem?_map, List.getElem?_eq_getElem hi']; rfl
      · have := hr S[i] (List.getElem_mem _)
        rw [List.getElem?_map, List.getElem?_map, List.getElem?_eq_getElem hi']
        simp [f, this]

end

end Psc.CudaPrts
