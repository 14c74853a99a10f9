import Verif.Spec.CudaBnd
import Verif.Lemmas.CudaFlds
import Verif.Lemmas.Ghost

/-!
# Ghost exchange on the GPU: maps and messages
-/

namespace Psc.CudaBnd

open Domain Fields Ddc CudaFlds Spec.CudaFlds Spec.CudaBnd

/-! ### Maps -/

theorem writeAt_eq (l : List ℕ) (map : List ℕ) (off : ℕ) (h : off + l.length ≤ map.length) :
    writeAt map off l = some (map.take off ++ l ++ map.drop (off + l.length)) := by
  induction l generalizing map off with
  | nil => simp [writeAt]
  | cons a l ih =>
    rw [List.length_cons] at h
    have ho : off < map.length := by omega
    rw [writeAt, if_pos ho, ih _ _ (by rw [List.length_set]; omega)]
    congr 1
    have e1 : (map.set off a).take (off + 1) = map.take off ++ [a] := by
      rw [List.set_eq_take_append_cons_drop, if_pos ho, List.take_append, List.length_take, Nat.min_eq_left (by omega)]
      rw [List.take_of_length_le (by rw [List.length_take]; omega)]
      simp
    have e2 : (map.set off a).drop (off + 1 + l.length) = map.drop (off + (a :: l).length) := by
      rw [List.drop_set_of_lt (by omega)]
      congr 1
      rw [List.length_cons]; omega
    rw [e1, e2]
    simp

theorem setup_aux (L : Layout) (mb me : ℕ) (es : List (Entry × ℤ))
    (hes : ∀ e ∈ es, ((cells mb me e.1.box).length : ℤ) = e.2 * ((me : ℤ) - mb)) (pre : List ℕ) (n : ℕ)
    (hn : (es.map fun e => (cells mb me e.1.box).length).sum ≤ n) :
    es.foldlM (fun (s : List ℕ × ℕ) e => (writeAt s.1 s.2 (map_setup L mb me e.1.patch e.1.box)).map fun map =>
      (map, s.2 + (e.2 * ((me : ℤ) - mb)).toNat)) (pre ++ List.replicate n 0, pre.length) =
    some (pre ++ (es.flatMap fun e => map_setup L mb me e.1.patch e.1.box) ++
      List.replicate (n - (es.map fun e => (cells mb me e.1.box).length).sum) 0,
      pre.length + (es.map fun e => (cells mb me e.1.box).length).sum) := by
  induction es generalizing pre n with
  | nil => simp
  | cons e es ih =>
    have he := hes e List.mem_cons_self
    rw [List.map_cons, List.sum_cons] at hn
    have hl : (map_setup L mb me e.1.patch e.1.box).length = (cells mb me e.1.box).length := by simp [map_setup]
    rw [List.foldlM_cons, writeAt_eq _ _ _ (by rw [hl, List.length_append, List.length_replicate]; omega)]
    have e1 : (pre ++ List.replicate n 0).take pre.length = pre := by simp
    have e2 : (pre ++ List.replicate n 0).drop (pre.length + (map_setup L mb me e.1.patch e.1.box).length) =
        List.replicate (n - (cells mb me e.1.box).length) 0 := by
      rw [hl, ← List.drop_drop, List.drop_left, List.drop_replicate]
    rw [e1, e2, ← he]
    have := ih (fun e' h' => hes e' (List.mem_cons_of_mem _ h')) (pre ++ map_setup L mb me e.1.patch e.1.box)
      (n - (cells mb me e.1.box).length) (by omega)
    rw [List.length_append, hl] at this
    simp only [Int.toNat_natCast, Option.map_some, Option.bind_eq_bind, Option.bind_some]
    rw [this, List.flatMap_cons, List.map_cons, List.sum_cons]
    simp only [List.append_assoc, Option.some.injEq, Prod.mk.injEq]
    refine ⟨?_, by omega⟩
    rw [Nat.sub_sub]

theorem setup_eq (L : Layout) (mb me : ℕ) (es : List (Entry × ℤ))
    (hes : ∀ e ∈ es, ((cells mb me e.1.box).length : ℤ) = e.2 * ((me : ℤ) - mb)) (n : ℕ)
    (hn : (es.map fun e => (cells mb me e.1.box).length).sum = n) :
    setup L mb me n es = some (es.flatMap fun e => map_setup L mb me e.1.patch e.1.box) := by
  have := setup_aux L mb me es hes [] n (by omega)
  rw [List.nil_append, List.length_nil] at this
  unfold setup
  rw [this]
  simp [hn]

/-! ### Places -/

/-- a cell in the storage -/
def cellOf (L : Layout) (p : ℕ) (c : ℕ × I3) : Cell :=
  ⟨(c.2 0 + L.ibn 0).toNat, (c.2 1 + L.ibn 1).toNat, (c.2 2 + L.ibn 2).toNat, c.1, p⟩

/-- it is there -/
def Has (L : Layout) (p : ℕ) (c : ℕ × I3) : Prop :=
  (∀ d, -L.ibn d ≤ c.2 d ∧ c.2 d < L.ldims d + L.ibn d) ∧ c.1 < L.nc ∧ p < L.np

/-- its place -/
def pl (L : Layout) (p : ℕ) (c : ℕ × I3) : ℕ := L.at (cellOf L p c)

theorem in_cellOf {L : Layout} {p : ℕ} {c : ℕ × I3} (h : Has L p c) : In L (cellOf L p c) := by
  obtain ⟨h1, h2, h3⟩ := h
  refine ⟨?_, ?_, ?_, h2, h3⟩
  · have := h1 0; rw [lt_im]; simp only [cellOf]; omega
  · have := h1 1; rw [lt_im]; simp only [cellOf]; omega
  · have := h1 2; rw [lt_im]; simp only [cellOf]; omega

theorem idx_cellOf {L : Layout} {p : ℕ} {c : ℕ × I3} (h : Has L p c) : (cellOf L p c).idx L = c.2 := by
  funext d
  have := h.1 d
  unfold Cell.idx cellOf
  fin_cases d <;> simp at this ⊢ <;> omega

theorem cellOf_idx {L : Layout} {c : Cell} (h : In L c) : Has L c.p (c.m, c.idx L) ∧ cellOf L c.p (c.m, c.idx L) = c := by
  have h0 := lt_im.1 h.i; have h1 := lt_im.1 h.j; have h2 := lt_im.1 h.k
  refine ⟨⟨fun d => ?_, h.m, h.p⟩, ?_⟩
  · unfold Cell.idx
    fin_cases d <;> simp <;> omega
  · obtain ⟨i, j, k, m, p⟩ := c
    simp [cellOf, Cell.idx]

theorem u32_place {L : Layout} (hs : L.size ≤ 2 ^ 32) {p : ℕ} {c : ℕ × I3} (h : Has L p c) :
    u32 (place L p c) = pl L p c := by
  have e : place L p c = (pl L p c : ℤ) := by
    have h0 := h.1 0; have h1 := h.1 1; have h2 := h.1 2
    unfold place pl Layout.at Layout.off cellOf
    push_cast
    rw [Int.toNat_of_nonneg (by omega), Int.toNat_of_nonneg (by omega), Int.toNat_of_nonneg (by omega)]
  have hlt := at_lt (in_cellOf h)
  unfold u32
  rw [e, Int.emod_eq_of_lt (by omega) (by unfold pl; omega)]
  simp

theorem pl_inj {L : Layout} {p p' : ℕ} {c c' : ℕ × I3} (h : Has L p c) (h' : Has L p' c') (e : pl L p c = pl L p' c') :
    p = p' ∧ c = c' := by
  have := at_inj (in_cellOf h) (in_cellOf h') e
  refine ⟨congrArg Cell.p this, Prod.ext (congrArg Cell.m this) ?_⟩
  rw [← idx_cellOf h, ← idx_cellOf h', this]

variable {K : Type} [Field K]

theorem get_pl {L : Layout} {S : RankState K} {M : List K} (hM : Stores L S M) {p : ℕ} {c : ℕ × I3} (h : Has L p c) :
    M[pl L p c]? = some (S p c) := by
  have := (stores_iff.1 hM).2 _ (in_cellOf h)
  rw [idx_cellOf h] at this
  exact this

theorem gather_eq {L : Layout} {S : RankState K} {M : List K} (hM : Stores L S M) (l : List (ℕ × (ℕ × I3)))
    (h : ∀ x ∈ l, Has L x.1 x.2) :
    gather (l.map fun x => pl L x.1 x.2) M = some (l.map fun x => S x.1 x.2) := by
  unfold gather
  induction l with
  | nil => rfl
  | cons x l ih =>
    rw [List.map_cons, List.mapM_cons, get_pl hM (h x List.mem_cons_self), ih fun y hy => h y (List.mem_cons_of_mem _ hy)]
    rfl

/-! ### Messages -/

theorem posts_aux (P : Patt) (ent : ℕ → List Entry) (n : ℕ → ℤ) (mm : ℤ) (f : ℕ → List K) (rs : List ℕ)
    (hf : ∀ r ∈ rs, r ≠ P.rank → (f r).length = (n r * mm).toNat ∧ ((ent r).length = 0 → f r = []))
    (pre post : List K) (acc : List (ℕ × ℕ × ℕ)) :
    let s := rs.foldl (fun (s : List (ℕ × ℕ × ℕ) × ℕ) r =>
      if r ≠ P.rank ∧ (ent r).length ≠ 0 then (s.1 ++ [(r, s.2, (n r * mm).toNat)], s.2 + (n r * mm).toNat) else s)
      (acc, pre.length)
    ∃ ps, s.1 = acc ++ ps ∧ s.2 = pre.length + ((rs.filter (· ≠ P.rank)).flatMap f).length ∧
      ps.map (fun q => q.1) = rs.filter (fun r => r ≠ P.rank ∧ (ent r).length ≠ 0) ∧
      (∀ q ∈ ps, q.2.2 = (f q.1).length) ∧
      ∀ q ∈ ps, ((pre ++ (rs.filter (· ≠ P.rank)).flatMap f ++ post).drop q.2.1).take q.2.2 = f q.1 := by
  induction rs generalizing pre acc with
  | nil => exact ⟨[], by simp⟩
  | cons r rs ih =>
    have ih' := ih fun x hx => hf x (List.mem_cons_of_mem _ hx)
    dsimp only
    rw [List.foldl_cons]
    by_cases hr : r = P.rank
    · have : ¬(r ≠ P.rank ∧ (ent r).length ≠ 0) := fun h => h.1 hr
      rw [if_neg this]
      obtain ⟨ps, h1, h2, h3, h4, h5⟩ := ih' pre acc
      have e : (r :: rs).filter (· ≠ P.rank) = rs.filter (· ≠ P.rank) := by simp [hr]
      rw [e]
      refine ⟨ps, h1, h2, ?_, h4, h5⟩
      rw [List.filter_cons_of_neg (by simp [hr])]
      exact h3
    · have e : (r :: rs).filter (· ≠ P.rank) = r :: rs.filter (· ≠ P.rank) := by simp [hr]
      obtain ⟨hl, he⟩ := hf r List.mem_cons_self hr
      rw [e, List.flatMap_cons]
      by_cases hn : (ent r).length = 0
      · have : ¬(r ≠ P.rank ∧ (ent r).length ≠ 0) := fun h => h.2 hn
        rw [if_neg this, he hn, List.nil_append]
        obtain ⟨ps, h1, h2, h3, h4, h5⟩ := ih' pre acc
        refine ⟨ps, h1, h2, ?_, h4, h5⟩
        rw [List.filter_cons_of_neg (by simp [hn])]
        exact h3
      · rw [if_pos ⟨hr, hn⟩]
        obtain ⟨ps, h1, h2, h3, h4, h5⟩ := ih' (pre ++ f r) (acc ++ [(r, pre.length, (n r * mm).toNat)])
        rw [List.length_append, hl] at h1 h2
        refine ⟨(r, pre.length, (n r * mm).toNat) :: ps, ?_, ?_, ?_, ?_, ?_⟩
        · rw [h1]; simp
        · rw [h2, List.length_append, hl]; omega
        · rw [List.filter_cons_of_pos (by simp [hr, hn]), List.map_cons, h3]
        · intro q hq
          rw [List.mem_cons] at hq
          rcases hq with rfl | hq
          · exact hl.symm
          · exact h4 q hq
        · intro q hq
          rw [List.mem_cons] at hq
          rcases hq with rfl | hq
          · simp only [List.append_assoc, List.drop_left]
            rw [← hl, List.take_left]
          · have := h5 q hq
            rw [← this]
            simp

theorem posts_eq (P : Patt) (ent : ℕ → List Entry) (n : ℕ → ℤ) (mm : ℤ) (f : ℕ → List K)
    (hf : ∀ r, r ≠ P.rank → (f r).length = (n r * mm).toNat ∧ ((ent r).length = 0 → f r = [])) (total : ℕ)
    (ht : (P.others.flatMap f).length = total) :
    ∃ ps, posts P ent n mm total = some ps ∧ ps.map (fun q => q.1) = P.others.filter (fun r => (ent r).length ≠ 0) ∧
      (∀ q ∈ ps, q.2.2 = (f q.1).length) ∧ ∀ q ∈ ps, ((P.others.flatMap f).drop q.2.1).take q.2.2 = f q.1 := by
  obtain ⟨ps, h1, h2, h3, h4, h5⟩ := posts_aux P ent n mm f (List.range P.size) (fun r _ => hf r) [] [] []
  simp only [List.length_nil, List.nil_append, List.append_nil, Nat.zero_add] at h1 h2 h5
  refine ⟨ps, ?_, ?_, h4, h5⟩
  · unfold posts
    dsimp only
    rw [h2]
    exact (if_pos ht).trans (by rw [h1])
  · rw [h3, Patt.others, List.filter_filter]
    congr 1
    funext r
    simp [Bool.and_comm]

theorem lookup_map_self {α : Type} (l : List ℕ) (f : ℕ → α) (a : ℕ) :
    (l.map fun r => (r, f r)).lookup a = if a ∈ l then some (f a) else none := by
  induction l with
  | nil => rfl
  | cons b l ih =>
    rw [List.map_cons, List.lookup_cons, ih]
    by_cases h : a = b
    · subst h; simp
    · have : (a == b) = false := by simpa using h
      rw [this]
      simp [h]

theorem receive_eq (ps : List (ℕ × ℕ × ℕ)) (others : List ℕ) (msg : ℕ → Option (List K)) (g : ℕ → List K)
    (hp : ∀ q ∈ ps, msg q.1 = some (g q.1) ∧ q.2.2 = (g q.1).length)
    (ho : ∀ r ∈ others, (msg r).isSome → r ∈ ps.map (fun q => q.1)) :
    receive ps others msg = some ((ps.map fun q => q.1).flatMap g) := by
  have key : ∀ (ps : List (ℕ × ℕ × ℕ)) (acc : List K), (∀ q ∈ ps, msg q.1 = some (g q.1) ∧ q.2.2 = (g q.1).length) →
      ps.foldlM (fun (buf : List K) q => do
        let m ← msg q.1
        if m.length = q.2.2 then some (buf ++ m) else none) acc = some (acc ++ (ps.map fun q => q.1).flatMap g) := by
    intro ps
    induction ps with
    | nil => intro acc _; simp
    | cons q ps ih =>
      intro acc h
      obtain ⟨h1, h2⟩ := h q List.mem_cons_self
      rw [List.foldlM_cons]
      have e : (do let m ← msg q.1; if m.length = q.2.2 then some (acc ++ m) else none) = some (acc ++ g q.1) := by
        rw [h1]; simp [h2]
      rw [e]
      refine (ih _ fun q hq => h q (List.mem_cons_of_mem _ hq)).trans ?_
      simp
  unfold receive
  rw [key ps [] hp]
  simp only [Option.bind_eq_bind, Option.bind_some, List.nil_append, if_pos ho]

/-! ### Zipping -/

theorem zip_flatMap {α β γ : Type} (l : List α) (f : α → List β) (g : α → List γ) (h : ∀ x ∈ l, (f x).length = (g x).length) :
    (l.flatMap f).zip (l.flatMap g) = l.flatMap fun x => (f x).zip (g x) := by
  induction l with
  | nil => rfl
  | cons x l ih =>
    rw [List.flatMap_cons, List.flatMap_cons, List.zip_append (h x List.mem_cons_self),
      ih fun y hy => h y (List.mem_cons_of_mem _ hy), List.flatMap_cons]

theorem zip_forall₂ {α β γ δ : Type} {l : List α} {l' : List β} (f : α → List γ) (g : β → List δ)
    (h : List.Forall₂ (fun a b => (f a).length = (g b).length) l l') :
    (l.flatMap f).zip (l'.flatMap g) = (l.zip l').flatMap fun x => (f x.1).zip (g x.2) := by
  induction h with
  | nil => rfl
  | cons hab _ ih => rw [List.flatMap_cons, List.flatMap_cons, List.zip_append hab, ih]; rfl

theorem length_forall₂ {α β γ δ : Type} {l : List α} {l' : List β} (f : α → List γ) (g : β → List δ)
    (h : List.Forall₂ (fun a b => (f a).length = (g b).length) l l') : (l.flatMap f).length = (l'.flatMap g).length := by
  induction h with
  | nil => rfl
  | cons hab _ ih => rw [List.flatMap_cons, List.flatMap_cons, List.length_append, List.length_append, hab, ih]

theorem flatMap_filter' {α β : Type} (l : List α) (p : α → Bool) (f : α → List β) (h : ∀ x ∈ l, p x = false → f x = []) :
    (l.filter p).flatMap f = l.flatMap f := by
  induction l with
  | nil => rfl
  | cons x l ih =>
    have ih' := ih fun y hy => h y (List.mem_cons_of_mem _ hy)
    cases hp : p x with
    | true => rw [List.filter_cons_of_pos hp, List.flatMap_cons, List.flatMap_cons, ih']
    | false => rw [List.filter_cons_of_neg (by simp [hp]), List.flatMap_cons, h x List.mem_cons_self hp, ih']; rfl

end Psc.CudaBnd
