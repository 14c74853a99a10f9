import Verif.Spec.Lists
import Mathlib.Data.List.Nodup
import Mathlib.Tactic.Common
import Mathlib.Algebra.BigOperators.Group.List.Basic
import Mathlib.Tactic.Ring

/-!
# Lemmas about lists
-/

namespace Psc.Lists

variable {P : Type} [DecidableEq P]

theorem chain_congr {R R' : P → P → Prop} {l : List P} (h : l.IsChain R) (H : ∀ u ∈ l.dropLast, ∀ v ∈ l.tail, R u v → R' u v) :
    l.IsChain R' := by
  induction l with
  | nil => exact List.IsChain.nil
  | cons a l ih =>
    cases l with
    | nil => exact List.IsChain.singleton a
    | cons b l =>
      rw [List.isChain_cons_cons] at h ⊢
      refine ⟨H a (by simp) b (by simp) h.1, ih h.2 fun u hu v hv => H u ?_ v ?_⟩
      · rw [List.dropLast_cons_of_ne_nil (by simp)]
        exact List.mem_cons_of_mem _ hu
      · exact List.mem_cons_of_mem _ hv

theorem last_not_mem {l : List P} (hn : l.Nodup) {a : P} (h : l.getLast? = some a) : a ∉ l.dropLast := by
  obtain ⟨A, rfl⟩ := List.getLast?_eq_some_iff.1 h
  rw [List.dropLast_concat]
  intro ha
  exact (List.nodup_append.1 hn).2.2 a ha a (by simp) rfl

theorem head_not_mem {l : List P} (hn : l.Nodup) {b : P} (h : l.head? = some b) : b ∉ l.tail := by
  cases l with
  | nil => simp at h
  | cons c l =>
    simp only [List.head?_cons, Option.some.injEq] at h
    subst h
    exact (List.nodup_cons.1 hn).1

/-- the links -/
abbrev lk (h : Heap P) : P → P → Prop := fun a b => h.next a = some b ∧ h.prev b = some a

theorem IsList.congr {h h' : Heap P} {p : P} {l : List P} (hl : IsList h p l)
    (H : ∀ y ∈ p :: l, h'.next y = h.next y ∧ h'.prev y = h.prev y) : IsList h' p l := by
  refine ⟨hl.nodup, chain_congr hl.chain fun u hu v hv r => ?_⟩
  rw [List.dropLast_concat] at hu
  have hv' : v ∈ p :: l := by
    rw [List.cons_append, List.tail_cons, List.mem_append, List.mem_singleton] at hv
    rcases hv with hv | rfl
    · exact List.mem_cons_of_mem _ hv
    · simp
  rw [(H u hu).1, (H v hv').2]
  exact r

/-- where the list is cut: what comes before and after -/
structure Cut (p : P) (l1 l2 : List P) (a b : P) : Prop where
  last : (p :: l1).getLast? = some a
  first : (l2 ++ [p]).head? = some b

theorem Cut.exists (p : P) (l1 l2 : List P) : ∃ a b, Cut p l1 l2 a b := by
  refine ⟨(p :: l1).getLast (by simp), (l2 ++ [p]).head (by simp), ?_, ?_⟩
  · exact List.getLast?_eq_some_getLast _
  · exact List.head?_eq_some_head _

theorem Cut.mem {p : P} {l1 l2 : List P} {a b : P} (hc : Cut p l1 l2 a b) : a ∈ p :: l1 ∧ b ∈ l2 ++ [p] :=
  ⟨List.mem_of_getLast? hc.last, List.mem_of_head? hc.first⟩

theorem nodup_rot {p : P} {l1 l2 : List P} (h : (p :: (l1 ++ l2)).Nodup) :
    (p :: l1).Nodup ∧ (l2 ++ [p]).Nodup ∧ (∀ x ∈ l1, x ∉ l2 ++ [p]) ∧ ∀ x ∈ l2, x ∉ p :: l1 := by
  simp only [List.nodup_cons, List.mem_append, not_or, List.nodup_append] at h
  obtain ⟨⟨h1, h2⟩, h3, h4, h5⟩ := h
  refine ⟨List.nodup_cons.2 ⟨h1, h3⟩, ?_, fun x hx hx' => ?_, fun x hx hx' => ?_⟩
  · rw [List.nodup_append]
    exact ⟨h4, by simp, fun a ha b hb e => h2 (by rw [List.mem_singleton] at hb; rw [← hb, ← e]; exact ha)⟩
  · rw [List.mem_append, List.mem_singleton] at hx'
    rcases hx' with hx' | rfl
    · exact h5 x hx x hx' rfl
    · exact h1 hx
  · rw [List.mem_cons] at hx'
    rcases hx' with rfl | hx'
    · exact h2 hx
    · exact h5 x hx' x hx rfl

theorem IsList.split {h : Heap P} {p : P} {l1 l2 : List P} (hl : IsList h p (l1 ++ l2)) :
    (p :: l1).IsChain (lk h) ∧ (l2 ++ [p]).IsChain (lk h) ∧ ∀ a ∈ (p :: l1).getLast?, ∀ b ∈ (l2 ++ [p]).head?, lk h a b := by
  have := hl.chain
  rwa [← List.cons_append, List.append_assoc, List.isChain_append] at this

theorem add_mid {h : Heap P} {p x a b : P} {l1 l2 : List P} (hl : IsList h p (l1 ++ l2)) (hx : x ∉ p :: (l1 ++ l2)) (hc : Cut p l1 l2 a b) :
    ∃ h', listAdd' h x (some a) (some b) = some h' ∧ IsList h' p (l1 ++ x :: l2) ∧
      ∀ y, y ∉ x :: p :: (l1 ++ l2) → h'.next y = h.next y ∧ h'.prev y = h.prev y := by
  refine ⟨_, rfl, ⟨?_, ?_⟩, fun y hy => ?_⟩
  · have := hl.nodup
    simp only [List.mem_cons, List.mem_append, not_or] at hx
    simp only [List.nodup_cons, List.mem_append, List.mem_cons, not_or, List.nodup_append] at this ⊢
    refine ⟨⟨this.1.1, Ne.symm hx.1, this.1.2⟩, this.2.1, ⟨hx.2.2, this.2.2.1⟩, fun u hu v hv => ?_⟩
    rcases hv with rfl | hv
    · exact fun e => hx.2.1 (e ▸ hu)
    · exact this.2.2.2 u hu v hv
  · obtain ⟨n1, n2, d1, d2⟩ := nodup_rot hl.nodup
    obtain ⟨c1, c2, -⟩ := hl.split
    obtain ⟨ma, mb⟩ := hc.mem
    have hxp : x ≠ p := fun e => hx (by simp [e])
    have hx1 : x ∉ p :: l1 := fun e => hx (by
      rw [List.mem_cons] at e ⊢; rcases e with e | e
      · exact Or.inl e
      · exact Or.inr (List.mem_append_left _ e))
    have hx2 : x ∉ l2 ++ [p] := fun e => hx (by
      rw [List.mem_append, List.mem_singleton] at e; rw [List.mem_cons]; rcases e with e | e
      · exact Or.inr (List.mem_append_right _ e)
      · exact Or.inl e)
    have hxa : x ≠ a := fun e => hx1 (e ▸ ma)
    have hxb : x ≠ b := fun e => hx2 (e ▸ mb)
    have e : p :: (l1 ++ x :: l2) ++ [p] = (p :: l1) ++ (x :: (l2 ++ [p])) := by simp
    rw [e, List.isChain_append]
    refine ⟨chain_congr c1 fun u hu v hv r => ?_, ?_, ?_⟩
    · have hua : u ≠ a := fun e => last_not_mem n1 hc.last (e ▸ hu)
      have hux : u ≠ x := fun e => hx1 (e ▸ List.dropLast_subset _ hu)
      rw [List.tail_cons] at hv
      have hvb : v ≠ b := fun e => d1 v hv (e ▸ mb)
      have hvx : v ≠ x := fun e => hx1 (e ▸ List.mem_cons_of_mem _ hv)
      simpa [Function.update_apply, hua, hux, hvb, hvx] using r
    · rw [List.isChain_cons]
      refine ⟨fun y hy => ?_, chain_congr c2 fun u hu v hv r => ?_⟩
      · rw [hc.first, Option.mem_some_iff] at hy
        subst hy
        simp [Function.update_apply, hxa, hxb.symm]
      · rw [List.dropLast_concat] at hu
        have hua : u ≠ a := fun e => d2 u hu (e ▸ ma)
        have hux : u ≠ x := fun e => hx2 (e ▸ List.mem_append_left _ hu)
        have hvb : v ≠ b := fun e => head_not_mem n2 hc.first (e ▸ hv)
        have hvx : v ≠ x := fun e => hx2 (e ▸ List.mem_of_mem_tail hv)
        simpa [Function.update_apply, hua, hux, hvb, hvx] using r
    · intro u hu v hv
      rw [hc.last, Option.mem_some_iff] at hu
      rw [List.head?_cons, Option.mem_some_iff] at hv
      subst hu
      subst hv
      simp
  · obtain ⟨ma, mb⟩ := hc.mem
    simp only [List.mem_cons, List.mem_append, not_or] at hy
    have hya : y ≠ a := by
      rintro rfl
      rw [List.mem_cons] at ma
      rcases ma with e | e
      · exact hy.2.1 e
      · exact hy.2.2.1 e
    have hyb : y ≠ b := by
      rintro rfl
      rw [List.mem_append, List.mem_singleton] at mb
      rcases mb with e | e
      · exact hy.2.2.2 e
      · exact hy.2.1 e
    simp [Function.update_apply, hya, hyb, hy.1]

theorem del_mid {h : Heap P} {p e : P} {l1 l2 : List P} (hl : IsList h p (l1 ++ e :: l2)) :
    ∃ h', listDel' h (h.prev e) (h.next e) = some h' ∧ IsList h' p (l1 ++ l2) ∧
      ∀ y, y ∉ p :: (l1 ++ l2) → h'.next y = h.next y ∧ h'.prev y = h.prev y := by
  obtain ⟨a, b, hc⟩ := Cut.exists p l1 l2
  obtain ⟨ma, mb⟩ := hc.mem
  obtain ⟨c1, c2, c3⟩ := hl.split
  rw [List.cons_append, List.isChain_cons] at c2
  have hpe := (c3 a hc.last e (by simp)).2
  have hne := (c2.1 b hc.first).1
  rw [hpe, hne]
  have hn : (p :: (l1 ++ l2)).Nodup := by
    have := hl.nodup
    refine this.sublist ?_
    exact List.Sublist.cons_cons _ (List.Sublist.append_left (List.sublist_cons_self _ _) _)
  obtain ⟨n1, n2, d1, d2⟩ := nodup_rot hn
  refine ⟨_, rfl, ⟨hn, ?_⟩, fun y hy => ?_⟩
  · rw [← List.cons_append, List.append_assoc, List.isChain_append]
    refine ⟨chain_congr c1 fun u hu v hv r => ?_, chain_congr c2.2 fun u hu v hv r => ?_, fun u hu v hv => ?_⟩
    · have hua : u ≠ a := fun e => last_not_mem n1 hc.last (e ▸ hu)
      rw [List.tail_cons] at hv
      have hvb : v ≠ b := fun e => d1 v hv (e ▸ mb)
      simpa [Function.update_apply, hua, hvb] using r
    · rw [List.dropLast_concat] at hu
      have hua : u ≠ a := fun e => d2 u hu (e ▸ ma)
      have hvb : v ≠ b := fun e => head_not_mem n2 hc.first (e ▸ hv)
      simpa [Function.update_apply, hua, hvb] using r
    · rw [hc.last, Option.mem_some_iff] at hu
      rw [hc.first, Option.mem_some_iff] at hv
      subst hu
      subst hv
      simp
  · simp only [List.mem_cons, List.mem_append, not_or] at hy
    have hya : y ≠ a := by
      rintro rfl
      rw [List.mem_cons] at ma
      rcases ma with e | e
      · exact hy.1 e
      · exact hy.2.1 e
    have hyb : y ≠ b := by
      rintro rfl
      rw [List.mem_append, List.mem_singleton] at mb
      rcases mb with e | e
      · exact hy.2.2 e
      · exact hy.1 e
    simp [Function.update_apply, hya, hyb]

theorem IsList.next_head {h : Heap P} {p : P} {l : List P} (hl : IsList h p l) : h.next p = (l ++ [p]).head? := by
  have := hl.chain
  rw [List.cons_append, List.isChain_cons] at this
  obtain ⟨a, b, hc⟩ := Cut.exists p [] l
  rw [hc.first]
  exact (this.1 b hc.first).1

theorem IsList.prev_head {h : Heap P} {p : P} {l : List P} (hl : IsList h p l) : h.prev p = (p :: l).getLast? := by
  have hl' : IsList h p (l ++ []) := by rwa [List.append_nil]
  obtain ⟨-, -, c3⟩ := hl'.split
  obtain ⟨a, b, hc⟩ := Cut.exists p l []
  rw [hc.last]
  exact (c3 a hc.last p (by simp)).2

theorem list_add_spec {h : Heap P} {p x : P} {l : List P} (hl : IsList h p l) (hx : x ∉ p :: l) :
    ∃ h', list_add h x p = some h' ∧ IsList h' p (x :: l) ∧ ∀ y, y ∉ x :: p :: l → h'.next y = h.next y ∧ h'.prev y = h.prev y := by
  obtain ⟨a, b, hc⟩ := Cut.exists p [] l
  have ha : p = a := by simpa using hc.last
  have := add_mid (l1 := []) hl hx hc
  unfold list_add
  rw [hl.next_head, hc.first, ha]
  rw [← ha] at this ⊢
  exact this

theorem list_add_tail_spec {h : Heap P} {p x : P} {l : List P} (hl : IsList h p l) (hx : x ∉ p :: l) :
    ∃ h', list_add_tail h x p = some h' ∧ IsList h' p (l ++ [x]) ∧ ∀ y, y ∉ x :: p :: l → h'.next y = h.next y ∧ h'.prev y = h.prev y := by
  obtain ⟨a, b, hc⟩ := Cut.exists p l []
  have hb : p = b := by simpa using hc.first
  have := add_mid (l2 := []) (x := x) (by rwa [List.append_nil]) (by rwa [List.append_nil]) hc
  rw [List.append_nil] at this
  unfold list_add_tail
  rw [hl.prev_head, hc.last, hb]
  rw [← hb] at this ⊢
  exact this

theorem list_del_spec {h : Heap P} {p e : P} {l1 l2 : List P} (hl : IsList h p (l1 ++ e :: l2)) :
    ∃ h', list_del h e = some h' ∧ IsList h' p (l1 ++ l2) ∧ (h'.next e = none ∧ h'.prev e = none) ∧
      ∀ y, y ∉ p :: (l1 ++ e :: l2) → h'.next y = h.next y ∧ h'.prev y = h.prev y := by
  obtain ⟨h1, e1, e2, e3⟩ := del_mid hl
  have he : e ∉ p :: (l1 ++ l2) := by
    have := hl.nodup
    simp only [List.nodup_cons, List.mem_append, List.mem_cons, not_or, List.nodup_append] at this ⊢
    exact ⟨Ne.symm this.1.2.1, fun h => this.2.2.2 e h e (Or.inl rfl) rfl, this.2.2.1.1⟩
  refine ⟨{ next := Function.update h1.next e none, prev := Function.update h1.prev e none }, ?_, e2.congr fun y hy => ?_, ⟨?_, ?_⟩, fun y hy => ?_⟩
  · unfold list_del
    rw [e1]
    rfl
  · have : y ≠ e := fun h => he (h ▸ hy)
    simp [Function.update_apply, this]
  · simp
  · simp
  · have h1 : y ≠ e := fun h => hy (by simp [h])
    have h2 : y ∉ p :: (l1 ++ l2) := fun h => hy (by
      simp only [List.mem_cons, List.mem_append] at h ⊢
      tauto)
    have := e3 y h2
    simpa [Function.update_apply, h1] using this

theorem initHead_spec (h : Heap P) (p : P) : IsList (initHead h p) p [] ∧
    ∀ y, y ≠ p → (initHead h p).next y = h.next y ∧ (initHead h p).prev y = h.prev y := by
  refine ⟨⟨by simp, ?_⟩, fun y hy => ?_⟩
  · simp [initHead]
  · simp [initHead, Function.update_apply, hy]

theorem IsList.empty_iff {h : Heap P} {p : P} {l : List P} (hl : IsList h p l) : list_empty h p = true ↔ l = [] := by
  unfold list_empty
  rw [hl.next_head]
  cases l with
  | nil => simp
  | cons x l =>
    have := hl.nodup
    simp only [List.nodup_cons, List.mem_cons, not_or] at this
    simp [Ne.symm this.1.1]

theorem splice_spec {h : Heap P} {p q : P} {l m : List P} (hl : IsList h p l) (hm : IsList h q m) (hd : List.Disjoint (p :: l) (q :: m))
    (h0 : m ≠ []) : ∃ h', listSplice' h q p = some h' ∧ IsList h' p (m ++ l) ∧
      ∀ y, y ∉ p :: (m ++ l) → h'.next y = h.next y ∧ h'.prev y = h.prev y := by
  obtain ⟨a, ha⟩ : ∃ a, m.getLast? = some a := ⟨m.getLast h0, List.getLast?_eq_some_getLast _⟩
  obtain ⟨f, hf⟩ : ∃ f, m.head? = some f := ⟨m.head h0, List.head?_eq_some_head _⟩
  obtain ⟨p', b, hc⟩ := Cut.exists p [] l
  have hn := hm.next_head
  have hp := hm.prev_head
  rw [List.head?_append, hf] at hn
  rw [List.getLast?_cons, ha] at hp
  have hnp := hl.next_head
  rw [hc.first] at hnp
  have mf : f ∈ m := List.mem_of_head? hf
  have ma : a ∈ m := List.mem_of_getLast? ha
  have mb : b ∈ l ++ [p] := hc.mem.2
  have mb' : b ∈ p :: l := by
    rw [List.mem_append, List.mem_singleton] at mb
    rw [List.mem_cons]
    exact mb.symm
  have hdis : ∀ x ∈ p :: l, x ∉ m := fun x hx hx' => hd hx (List.mem_cons_of_mem _ hx')
  have hpm : p ∉ m := hdis p (by simp)
  have nl := hl.nodup
  have nm := (List.nodup_cons.1 hm.nodup).2
  have nr := (nodup_rot (l1 := []) nl).2.1
  have key : listSplice' h q p = some { next := Function.update (Function.update h.next p (some f)) a (some b), prev := Function.update (Function.update h.prev f (some p)) b (some a) } := by
    unfold listSplice'
    rw [hn, hp, hnp]
    rfl
  refine ⟨_, key, ⟨?_, ?_⟩, fun y hy => ?_⟩
  · simp only [List.nodup_cons, List.mem_append, not_or, List.nodup_append] at nl ⊢
    exact ⟨⟨hpm, nl.1⟩, nm, nl.2, fun u hu v hv e => hdis v (List.mem_cons_of_mem _ hv) (e ▸ hu)⟩
  · have e : p :: (m ++ l) ++ [p] = [p] ++ (m ++ (l ++ [p])) := by simp
    have cm : m.IsChain (lk h) := by
      have := hm.chain
      rw [List.cons_append, List.isChain_cons, List.isChain_append] at this
      exact this.2.1
    have cl : (l ++ [p]).IsChain (lk h) := by
      have := hl.chain
      rw [List.cons_append, List.isChain_cons] at this
      exact this.2
    rw [e, List.isChain_append, List.isChain_append]
    refine ⟨List.IsChain.singleton p, ⟨chain_congr cm fun u hu v hv r => ?_, chain_congr cl fun u hu v hv r => ?_, fun u hu v hv => ?_⟩, fun u hu v hv => ?_⟩
    · have h1 : u ≠ a := fun e => last_not_mem nm ha (e ▸ hu)
      have h2 : u ≠ p := fun e => hpm (e ▸ List.dropLast_subset _ hu)
      have h3 : v ≠ f := fun e => head_not_mem nm hf (e ▸ hv)
      have h4 : v ≠ b := fun e => hdis b mb' (e ▸ List.mem_of_mem_tail hv)
      simpa [Function.update_apply, h1, h2, h3, h4] using r
    · rw [List.dropLast_concat] at hu
      have h1 : u ≠ a := fun e => hdis u (List.mem_cons_of_mem _ hu) (e ▸ ma)
      have h2 : u ≠ p := fun e => (List.nodup_cons.1 nl).1 (e ▸ hu)
      have h4 : v ≠ b := fun e => head_not_mem nr hc.first (e ▸ hv)
      have hv' : v ∈ p :: l := by
        have := List.mem_of_mem_tail hv
        rw [List.mem_append, List.mem_singleton] at this
        rw [List.mem_cons]
        exact this.symm
      have h3 : v ≠ f := fun e => hdis v hv' (e ▸ mf)
      simpa [Function.update_apply, h1, h2, h3, h4] using r
    · rw [ha, Option.mem_some_iff] at hu
      rw [hc.first, Option.mem_some_iff] at hv
      subst hu
      subst hv
      simp
    · rw [List.getLast?_singleton, Option.mem_some_iff] at hu
      rw [List.head?_append, hf] at hv
      have hv : f = v := by simpa using hv
      subst hu
      subst hv
      have h1 : p ≠ a := fun e => hpm (e ▸ ma)
      have h2 : f ≠ b := fun e => hdis b mb' (e ▸ mf)
      simp [Function.update_apply, h1, h2]
  · simp only [List.mem_cons, List.mem_append, not_or] at hy
    have h1 : y ≠ a := fun e => hy.2.1 (e ▸ ma)
    have h2 : y ≠ f := fun e => hy.2.1 (e ▸ mf)
    have h3 : y ≠ b := by
      rintro rfl
      rw [List.mem_cons] at mb'
      rcases mb' with e | e
      · exact hy.1 e
      · exact hy.2.2 e
    simp [Function.update_apply, h1, h2, h3, hy.1]

/-! ## Many lists -/

/-- both pointers are what they were -/
abbrev Same (h h' : Heap P) (y : P) : Prop := h'.next y = h.next y ∧ h'.prev y = h.prev y

theorem Rep.one {h h' : Heap P} {L : World P} (hR : Rep h L) {p : P} {l' : List P} (hl' : IsList h' p l')
    (sub : ∀ y ∈ p :: l', (∃ l, L p = some l ∧ y ∈ p :: l) ∨ L.Free y)
    (frame : ∀ q m, L q = some m → q ≠ p → ∀ y ∈ q :: m, Same h h' y) : Rep h' (Function.update L p (some l')) := by
  have hdis : ∀ q m, L q = some m → q ≠ p → List.Disjoint (p :: l') (q :: m) := by
    intro q m hq hqp y hy hy'
    rcases sub y hy with ⟨l, hl, hyl⟩ | hf
    · exact hR.disjoint q m p l hq hl hqp hy' hyl
    · exact hf q m hq hy'
  refine ⟨fun q m hq => ?_, fun q m q' m' hq hq' hne => ?_⟩
  · by_cases e : q = p
    · subst e
      rw [Function.update_self, Option.some.injEq] at hq
      exact hq ▸ hl'
    · rw [Function.update_of_ne e] at hq
      exact (hR.lists q m hq).congr (frame q m hq e)
  · by_cases e : q = p
    · subst e
      rw [Function.update_self, Option.some.injEq] at hq
      rw [Function.update_of_ne hne.symm] at hq'
      exact hq ▸ hdis q' m' hq' hne.symm
    · rw [Function.update_of_ne e] at hq
      by_cases e' : q' = p
      · subst e'
        rw [Function.update_self, Option.some.injEq] at hq'
        exact hq' ▸ fun y hy hy' => hdis q m hq e hy' hy
      · rw [Function.update_of_ne e'] at hq'
        exact hR.disjoint q m q' m' hq hq' hne

theorem Rep.drop {h : Heap P} {L : World P} (hR : Rep h L) (q : P) : Rep h (Function.update L q none) := by
  have : ∀ {p l}, Function.update L q none p = some l → L p = some l := by
    intro p l hp
    by_cases e : p = q
    · subst e; simp at hp
    · rwa [Function.update_of_ne e] at hp
  exact ⟨fun p l hp => hR.lists p l (this hp), fun p l r m hp hr => hR.disjoint p l r m (this hp) (this hr)⟩

theorem Rep.init {h : Heap P} {L : World P} (hR : Rep h L) {p : P} (hp : L.Free p) :
    Rep (initHead h p) (Function.update L p (some [])) := by
  obtain ⟨h1, h2⟩ := initHead_spec h p
  refine hR.one h1 (fun y hy => Or.inr ?_) fun q m hq hqp y hy => h2 y fun e => hp q m hq (e ▸ hy)
  rw [List.mem_singleton] at hy
  exact hy ▸ hp

theorem Rep.outside {h : Heap P} {L : World P} (hR : Rep h L) {p q : P} {l m : List P} (hp : L p = some l) (hq : L q = some m) (hne : q ≠ p)
    {x : P} (hx : L.Free x) {y : P} (hy : y ∈ q :: m) : y ∉ x :: p :: l := by
  rw [List.mem_cons, not_or]
  exact ⟨fun e => hx q m hq (e ▸ hy), fun e => hR.disjoint q m p l hq hp hne hy e⟩

theorem Rep.add {h : Heap P} {L : World P} (hR : Rep h L) {x p : P} {l : List P} (hx : L.Free x) (hp : L p = some l) :
    ∃ h', list_add h x p = some h' ∧ Rep h' (Function.update L p (some (x :: l))) ∧ ∀ y, y ∉ x :: p :: l → Same h h' y := by
  obtain ⟨h', e1, e2, e3⟩ := list_add_spec (hR.lists p l hp) (hx p l hp)
  refine ⟨h', e1, hR.one e2 (fun y hy => ?_) fun q m hq hqp y hy => e3 y (hR.outside hp hq hqp hx hy), e3⟩
  simp only [List.mem_cons] at hy
  rcases hy with rfl | rfl | hy
  · exact Or.inl ⟨l, hp, by simp⟩
  · exact Or.inr hx
  · exact Or.inl ⟨l, hp, by simp [hy]⟩

theorem Rep.addTail {h : Heap P} {L : World P} (hR : Rep h L) {x p : P} {l : List P} (hx : L.Free x) (hp : L p = some l) :
    ∃ h', list_add_tail h x p = some h' ∧ Rep h' (Function.update L p (some (l ++ [x]))) ∧ ∀ y, y ∉ x :: p :: l → Same h h' y := by
  obtain ⟨h', e1, e2, e3⟩ := list_add_tail_spec (hR.lists p l hp) (hx p l hp)
  refine ⟨h', e1, hR.one e2 (fun y hy => ?_) fun q m hq hqp y hy => e3 y (hR.outside hp hq hqp hx hy), e3⟩
  simp only [List.mem_cons, List.mem_append, List.not_mem_nil, or_false] at hy
  rcases hy with rfl | hy | rfl
  · exact Or.inl ⟨l, hp, by simp⟩
  · exact Or.inl ⟨l, hp, by simp [hy]⟩
  · exact Or.inr hx

theorem filter_cut {l1 l2 : List P} {e : P} (h : (l1 ++ e :: l2).Nodup) : (l1 ++ e :: l2).filter (fun x => x ≠ e) = l1 ++ l2 := by
  simp only [List.nodup_append, List.nodup_cons, List.mem_cons] at h
  rw [List.filter_append, List.filter_cons_of_neg (by simp)]
  congr 1
  · exact List.filter_eq_self.2 fun x hx => by simpa using h.2.2 x hx e (Or.inl rfl)
  · exact List.filter_eq_self.2 fun x hx => by simpa using fun e' : x = e => h.2.1.1 (e' ▸ hx)

theorem Rep.without_eq {h : Heap P} {L : World P} (hR : Rep h L) {e p : P} {l1 l2 : List P} (hp : L p = some (l1 ++ e :: l2)) :
    L.without e = Function.update L p (some (l1 ++ l2)) := by
  funext q
  unfold World.without
  by_cases hq : q = p
  · subst hq
    rw [Function.update_self, hp, Option.map_some, filter_cut (List.nodup_cons.1 (hR.lists q _ hp).nodup).2]
  · rw [Function.update_of_ne hq]
    cases hm : L q with
    | none => rfl
    | some m =>
      rw [Option.map_some]
      congr 1
      refine List.filter_eq_self.2 fun x hx => ?_
      simp only [ne_eq, decide_not, Bool.not_eq_eq_eq_not, Bool.not_true, decide_eq_false_iff_not]
      rintro rfl
      exact hR.disjoint q m p _ hm hp hq (List.mem_cons_of_mem _ hx) (by simp)

theorem Rep.entry_free {h : Heap P} {L : World P} (hR : Rep h L) {e p : P} {l1 l2 : List P} (hp : L p = some (l1 ++ e :: l2)) :
    World.Free (Function.update L p (some (l1 ++ l2))) e := by
  intro q m hq
  by_cases e' : q = p
  · subst e'
    rw [Function.update_self, Option.some.injEq] at hq
    subst hq
    have := (hR.lists q _ hp).nodup
    simp only [List.nodup_cons, List.mem_append, List.mem_cons, not_or, List.nodup_append] at this ⊢
    exact ⟨Ne.symm this.1.2.1, fun h => this.2.2.2 e h e (Or.inl rfl) rfl, this.2.2.1.1⟩
  · rw [Function.update_of_ne e'] at hq
    exact fun hm => hR.disjoint q m p _ hq hp e' hm (by simp)

theorem Rep.del' {h : Heap P} {L : World P} (hR : Rep h L) {e p : P} {l1 l2 : List P} (hp : L p = some (l1 ++ e :: l2)) :
    ∃ h', listDel' h (h.prev e) (h.next e) = some h' ∧ Rep h' (Function.update L p (some (l1 ++ l2))) := by
  obtain ⟨h', e1, e2, e3⟩ := del_mid (hR.lists p _ hp)
  refine ⟨h', e1, hR.one e2 (fun y hy => Or.inl ⟨_, hp, ?_⟩) fun q m hq hqp y hy => e3 y fun hy' => ?_⟩
  · simp only [List.mem_cons, List.mem_append] at hy ⊢; tauto
  · refine hR.disjoint q m p _ hq hp hqp hy ?_
    simp only [List.mem_cons, List.mem_append] at hy' ⊢; tauto

theorem Rep.del {h : Heap P} {L : World P} (hR : Rep h L) {e p : P} {l1 l2 : List P} (hp : L p = some (l1 ++ e :: l2)) :
    ∃ h', list_del h e = some h' ∧ Rep h' (Function.update L p (some (l1 ++ l2))) ∧ (∀ y, y ∉ p :: (l1 ++ e :: l2) → Same h h' y) ∧
      h'.next e = none ∧ h'.prev e = none := by
  obtain ⟨h', e1, e2, e4, e3⟩ := list_del_spec (hR.lists p _ hp)
  refine ⟨h', e1, hR.one e2 (fun y hy => Or.inl ⟨_, hp, ?_⟩) fun q m hq hqp y hy => e3 y fun hy' => ?_, e3, e4⟩
  · simp only [List.mem_cons, List.mem_append] at hy ⊢; tauto
  · exact hR.disjoint q m p _ hq hp hqp hy hy'

theorem World.Entry.cut {L : World P} {e : P} (h : L.Entry e) : ∃ p l1 l2, L p = some (l1 ++ e :: l2) := by
  obtain ⟨p, l, hp, he⟩ := h
  obtain ⟨l1, l2, rfl⟩ := List.append_of_mem he
  exact ⟨p, l1, l2, hp⟩

theorem Rep.splice {h : Heap P} {L : World P} (hR : Rep h L) {p q : P} {l m : List P} (hq : L q = some m) (hp : L p = some l) (hqp : q ≠ p)
    (h0 : m ≠ []) : ∃ h', listSplice' h q p = some h' ∧
      Rep h' (Function.update (Function.update L q none) p (some (m ++ l))) ∧
      World.Free (Function.update (Function.update L q none) p (some (m ++ l))) q := by
  have hd := hR.disjoint p l q m hp hq hqp.symm
  obtain ⟨h', e1, e2, e3⟩ := splice_spec (hR.lists p l hp) (hR.lists q m hq) hd h0
  have hmf : ∀ y ∈ q :: m, World.Free (Function.update L q none) y := by
    intro y hy r k hr hyk
    by_cases e : r = q
    · subst e; simp at hr
    · rw [Function.update_of_ne e] at hr
      exact hR.disjoint r k q m hr hq e hyk hy
  refine ⟨h', e1, (hR.drop q).one e2 (fun y hy => ?_) fun r k hr hrp y hy => e3 y fun hy' => ?_, ?_⟩
  · simp only [List.mem_cons, List.mem_append] at hy
    rcases hy with rfl | hy | hy
    · exact Or.inl ⟨l, by rw [Function.update_of_ne hqp.symm, hp], by simp⟩
    · exact Or.inr (hmf y (by simp [hy]))
    · exact Or.inl ⟨l, by rw [Function.update_of_ne hqp.symm, hp], by simp [hy]⟩
  · by_cases e : r = q
    · subst e; simp at hr
    · have hr' := hr
      rw [Function.update_of_ne e] at hr'
      simp only [List.mem_cons, List.mem_append] at hy'
      rcases hy' with rfl | hy' | hy'
      · exact hR.disjoint r k y l hr' hp hrp hy (by simp)
      · exact hmf y (by simp [hy']) r k hr hy
      · exact hR.disjoint r k p l hr' hp hrp hy (by simp [hy'])
  · intro r k hr hqk
    by_cases e : r = p
    · subst e
      rw [Function.update_self, Option.some.injEq] at hr
      subst hr
      simp only [List.mem_cons, List.mem_append] at hqk
      have := hR.lists q m hq |>.nodup
      rcases hqk with h | h | h
      · exact hqp h
      · exact (List.nodup_cons.1 this).1 h
      · exact hd (List.mem_cons_of_mem _ h) (by simp)
    · rw [Function.update_of_ne e] at hr
      exact hmf q (by simp) r k hr hqk

theorem Rep.step {h : Heap P} {L : World P} (hR : Rep h L) {c : Cmd P} (hc : L.Allowed c) :
    ∃ h', exec h c = some h' ∧ Rep h' (L.after c) := by
  cases c with
  | init p => exact ⟨_, rfl, hR.init hc⟩
  | add x p =>
    obtain ⟨l, hl⟩ := Option.isSome_iff_exists.1 hc.2
    obtain ⟨h', e1, e2, -⟩ := hR.add hc.1 hl
    exact ⟨h', e1, by simpa [World.after, hl] using e2⟩
  | addTail x p =>
    obtain ⟨l, hl⟩ := Option.isSome_iff_exists.1 hc.2
    obtain ⟨h', e1, e2, -⟩ := hR.addTail hc.1 hl
    exact ⟨h', e1, by simpa [World.after, hl] using e2⟩
  | del e =>
    obtain ⟨p, l1, l2, hp⟩ := World.Entry.cut hc
    obtain ⟨h', e1, e2, -⟩ := hR.del hp
    refine ⟨h', e1, ?_⟩
    show Rep h' (L.without e)
    rwa [hR.without_eq hp]
  | delInit e =>
    obtain ⟨p, l1, l2, hp⟩ := World.Entry.cut hc
    obtain ⟨h', e1, e2⟩ := hR.del' hp
    refine ⟨initHead h' e, ?_, ?_⟩
    · simp [exec, list_del_init, e1]
    · show Rep _ (Function.update (L.without e) e (some []))
      rw [hR.without_eq hp]
      exact e2.init (hR.entry_free hp)
  | move e p =>
    obtain ⟨q, l1, l2, hq⟩ := World.Entry.cut hc.1
    obtain ⟨h1, e1, e2⟩ := hR.del' hq
    obtain ⟨l, hl⟩ : ∃ l, L.without e p = some l := by
      obtain ⟨l, hl⟩ := Option.isSome_iff_exists.1 hc.2
      exact ⟨_, by rw [World.without, hl]; rfl⟩
    rw [hR.without_eq hq] at hl
    obtain ⟨h', e3, e4, -⟩ := e2.add (hR.entry_free hq) hl
    refine ⟨h', by simp [exec, list_move, e1, e3], ?_⟩
    show Rep h' (Function.update (L.without e) p ((L.without e p).map fun l => e :: l))
    rw [hR.without_eq hq, hl]
    exact e4
  | moveTail e p =>
    obtain ⟨q, l1, l2, hq⟩ := World.Entry.cut hc.1
    obtain ⟨h1, e1, e2⟩ := hR.del' hq
    obtain ⟨l, hl⟩ : ∃ l, L.without e p = some l := by
      obtain ⟨l, hl⟩ := Option.isSome_iff_exists.1 hc.2
      exact ⟨_, by rw [World.without, hl]; rfl⟩
    rw [hR.without_eq hq] at hl
    obtain ⟨h', e3, e4, -⟩ := e2.addTail (hR.entry_free hq) hl
    refine ⟨h', by simp [exec, list_move_tail, e1, e3], ?_⟩
    show Rep h' (Function.update (L.without e) p ((L.without e p).map fun l => l ++ [e]))
    rw [hR.without_eq hq, hl]
    exact e4
  | splice q p =>
    obtain ⟨m, hm⟩ := Option.isSome_iff_exists.1 hc.1
    obtain ⟨l, hl⟩ := Option.isSome_iff_exists.1 hc.2.1
    have hqp : q ≠ p := hc.2.2
    have ew : L.after (.splice q p) = Function.update (Function.update L q none) p (some (m ++ l)) := by
      simp only [World.after, hm, hl, Option.bind_some, Option.map_some]
      rw [Function.update_comm hqp]
    rw [ew]
    by_cases h0 : m = []
    · have he := (hR.lists q m hm).empty_iff.2 h0
      refine ⟨h, by simp [exec, list_splice, he], ?_⟩
      have := hR.drop q
      rw [h0, List.nil_append]
      rwa [Function.update_eq_self_iff.2]
      rw [Function.update_of_ne hqp.symm, hl]
    · obtain ⟨h', e1, e2, -⟩ := hR.splice hm hl hqp h0
      have he : list_empty h q = false := by
        rw [Bool.eq_false_iff]
        exact fun h => h0 ((hR.lists q m hm).empty_iff.1 h)
      exact ⟨h', by simp [exec, list_splice, he, e1], e2⟩
  | spliceInit q p =>
    obtain ⟨m, hm⟩ := Option.isSome_iff_exists.1 hc.1
    obtain ⟨l, hl⟩ := Option.isSome_iff_exists.1 hc.2.1
    have hqp : q ≠ p := hc.2.2
    have ew : L.after (.spliceInit q p) =
        Function.update (Function.update (Function.update L q none) p (some (m ++ l))) q (some []) := by
      simp only [World.after, hm, hl, Option.bind_some, Option.map_some]
      funext r
      by_cases h1 : r = q
      · subst h1; simp
      · by_cases h2 : r = p
        · subst h2; simp [h1]
        · simp [h1, h2]
    rw [ew]
    by_cases h0 : m = []
    · have he := (hR.lists q m hm).empty_iff.2 h0
      refine ⟨h, by simp [exec, list_splice_init, he], ?_⟩
      have e : Function.update (Function.update (Function.update L q none) p (some (m ++ l))) q (some []) = L := by
        rw [Function.update_comm hqp.symm, Function.update_idem, ← h0, ← hm, Function.update_eq_self, h0, List.nil_append, ← hl,
          Function.update_eq_self]
      rwa [e]
    · obtain ⟨h', e1, e2, e3⟩ := hR.splice hm hl hqp h0
      have he : list_empty h q = false := by
        rw [Bool.eq_false_iff]
        exact fun h => h0 ((hR.lists q m hm).empty_iff.1 h)
      exact ⟨initHead h' q, by simp [exec, list_splice_init, he, e1], e2.init e3⟩

/-! ## Loops -/

theorem IsList.next_mid {h : Heap P} {p x : P} {l1 l2 : List P} (hl : IsList h p (l1 ++ x :: l2)) : h.next x = (l2 ++ [p]).head? := by
  obtain ⟨-, c2, -⟩ := hl.split
  rw [List.cons_append, List.isChain_cons] at c2
  obtain ⟨a, b, hc⟩ := Cut.exists p l1 l2
  rw [hc.first]
  exact (c2.1 b hc.first).1

theorem IsList.prev_mid {h : Heap P} {p x : P} {l1 l2 : List P} (hl : IsList h p (l1 ++ x :: l2)) : h.prev x = (p :: l1).getLast? := by
  obtain ⟨-, -, c3⟩ := hl.split
  obtain ⟨a, b, hc⟩ := Cut.exists p l1 l2
  rw [hc.last]
  exact (c3 a hc.last x (by simp)).2

theorem IsList.ne {h : Heap P} {p x : P} {l : List P} (hl : IsList h p l) (hx : x ∈ l) : x ≠ p :=
  fun e => (List.nodup_cons.1 hl.nodup).1 (e ▸ hx)

theorem forEach_from {h : Heap P} {p : P} (l2 : List P) : ∀ (l1 : List P) (n : ℕ), IsList h p (l1 ++ l2) → l2.length < n →
    forEach h p n (l2 ++ [p]).head? = some l2 := by
  induction l2 with
  | nil =>
    intro l1 n _ hn
    obtain ⟨k, rfl⟩ : ∃ k, n = k + 1 := ⟨n - 1, by simp at hn; omega⟩
    simp [forEach]
  | cons x l2 ih =>
    intro l1 n hl hn
    obtain ⟨k, rfl⟩ : ∃ k, n = k + 1 := ⟨n - 1, by omega⟩
    rw [List.cons_append, List.head?_cons, forEach, if_neg (hl.ne (by simp)), hl.next_mid, ih (l1 ++ [x]) k (by simpa using hl)
      (by rw [List.length_cons] at hn; omega)]
    rfl

theorem forEachPrev_from {h : Heap P} {p : P} (l1 : List P) : ∀ (l2 : List P) (n : ℕ), IsList h p (l1 ++ l2) → l1.length < n →
    forEachPrev h p n (p :: l1).getLast? = some l1.reverse := by
  induction l1 using List.reverseRecOn with
  | nil =>
    intro l2 n _ hn
    obtain ⟨k, rfl⟩ : ∃ k, n = k + 1 := ⟨n - 1, by simp at hn; omega⟩
    simp [forEachPrev]
  | append_singleton l1 x ih =>
    intro l2 n hl hn
    obtain ⟨k, rfl⟩ : ∃ k, n = k + 1 := ⟨n - 1, by omega⟩
    rw [List.append_assoc, List.singleton_append] at hl
    rw [← List.cons_append, List.getLast?_concat, forEachPrev, if_neg (hl.ne (by simp)), hl.prev_mid, ih (x :: l2) k hl
      (by rw [List.length_append, List.length_singleton] at hn; omega)]
    simp

theorem forEachSafe_from (f : P → Bool) {p : P} (l2 : List P) : ∀ (l1 : List P) (n : ℕ) (h : Heap P), IsList h p (l1 ++ l2) → l2.length < n →
    ∃ h', forEachSafe f p n h (l2 ++ [p]).head? ((l2 ++ [p]).head?.bind h.next) = some (l2, h') ∧
      IsList h' p (l1 ++ l2.filter fun x => !f x) := by
  induction l2 with
  | nil =>
    intro l1 n h hl hn
    obtain ⟨k, rfl⟩ : ∃ k, n = k + 1 := ⟨n - 1, by simp at hn; omega⟩
    exact ⟨h, by simp [forEachSafe], hl⟩
  | cons x l2 ih =>
    intro l1 n h hl hn
    obtain ⟨k, rfl⟩ : ∃ k, n = k + 1 := ⟨n - 1, by omega⟩
    have hk : l2.length < k := by rw [List.length_cons] at hn; omega
    rw [List.cons_append, List.head?_cons, forEachSafe, if_neg (hl.ne (by simp)), Option.bind_some, hl.next_mid]
    cases hf : f x with
    | true =>
      obtain ⟨h1, e1, e2, -⟩ := list_del_spec hl
      obtain ⟨h', e3, e4⟩ := ih l1 k h1 e2 hk
      refine ⟨h', ?_, ?_⟩
      · simp only [if_true, e1, Option.bind_eq_bind, Option.bind_some, e3]
        rfl
      · rwa [List.filter_cons_of_neg (by simp [hf])]
    | false =>
      obtain ⟨h', e3, e4⟩ := ih (l1 ++ [x]) k h (by simpa using hl) hk
      refine ⟨h', ?_, ?_⟩
      · simp only [Bool.false_eq_true, if_false, Option.bind_eq_bind, Option.bind_some, e3]
        rfl
      · rw [List.filter_cons_of_pos (by simp [hf])]
        simpa using e4

theorem drain_spec {p : P} (l : List P) : ∀ (n : ℕ) (h : Heap P), IsList h p l → l.length < n →
    ∃ h', drain p n h = some (l, h') ∧ IsList h' p [] := by
  induction l with
  | nil =>
    intro n h hl hn
    obtain ⟨k, rfl⟩ : ∃ k, n = k + 1 := ⟨n - 1, by simp at hn; omega⟩
    exact ⟨h, by rw [drain, if_pos (hl.empty_iff.2 rfl)], hl⟩
  | cons x l ih =>
    intro n h hl hn
    obtain ⟨k, rfl⟩ : ∃ k, n = k + 1 := ⟨n - 1, by omega⟩
    have hne : ¬ list_empty h p = true := fun e => by simpa using hl.empty_iff.1 e
    obtain ⟨h1, e1, e2, -⟩ := list_del_spec (l1 := []) hl
    obtain ⟨h', e3, e4⟩ := ih k h1 e2 (by rw [List.length_cons] at hn; omega)
    refine ⟨h', ?_, e4⟩
    have hx : h.next p = some x := hl.next_head
    rw [drain, if_neg hne]
    simp only [hx, Option.bind_eq_bind, Option.bind_some, e1, e3]
    rfl

/-! ## Objects -/

variable {O C : Type} [DecidableEq O] [DecidableEq C]

/-- the lists there are to be -/
def lists (A : Abs O C) : World (Addr O C)
  | .instances c => if c ∈ A.classes then some ((A.instances c).map .instance_entry) else none
  | .active_head => if A.classes = [] then none else some (A.classes.map .active)
  | _ => none

structure Inv (s : Objs O C) (A : Abs O C) : Prop where
  rep : Rep s.heap (lists A)
  ini : ∀ c, s.initialized c = decide (c ∈ A.classes)
  act : ∀ c, c ∉ A.classes → s.heap.next (.active c) = none
  head : A.classes = [] → s.heap.next .active_head = none
  nod : (A.objs.map Prod.fst).Nodup
  pos : ∀ x ∈ A.objs, x.2.2 ≠ 0
  ref : ∀ x ∈ A.objs, s.refcount x.1 = x.2.2 ∧ s.cls x.1 = some x.2.1 ∧ x.2.1 ∈ A.classes
  ref0 : ∀ o, o ∉ A.objs.map Prod.fst → s.refcount o = 0
  cnt : ∀ c, s.nr_instances c = (A.instances c).length
  bal : ∀ c, s.nr_instances c = s.nr_creates c - s.nr_frees c

theorem Inv.start : Inv (start : Objs O C) ⟨[], []⟩ := by
  refine ⟨⟨fun p l h => ?_, fun p l q m h => ?_⟩, fun c => rfl, fun c _ => rfl, fun _ => rfl, List.nodup_nil, fun x hx => by simp at hx,
    fun x hx => by simp at hx, fun o _ => rfl, fun c => rfl, fun c => rfl⟩
  · cases p <;> simp [lists] at h
  · cases p <;> simp [lists] at h

theorem World.Free.update {L : World P} {x p : P} {l : List P} (h : L.Free x) (h1 : x ≠ p) (h2 : x ∉ l) :
    World.Free (Function.update L p (some l)) x := by
  intro q m hq
  by_cases e : q = p
  · subst e
    rw [Function.update_self, Option.some.injEq] at hq
    subst hq
    simp [h1, h2]
  · rw [Function.update_of_ne e] at hq
    exact h q m hq

theorem lists_mem {A : Abs O C} {p y : Addr O C} {l : List (Addr O C)} (h : lists A p = some l) (hy : y ∈ p :: l) :
    (∃ c ∈ A.classes, y = .instances c ∨ ∃ o ∈ A.instances c, y = .instance_entry o) ∨
      (A.classes ≠ [] ∧ (y = .active_head ∨ ∃ c ∈ A.classes, y = .active c)) := by
  cases p with
  | instance_entry o => simp [lists] at h
  | instances c =>
    simp only [lists] at h
    split_ifs at h with hc
    simp only [Option.some.injEq] at h
    subst h
    left
    refine ⟨c, hc, ?_⟩
    simpa [eq_comm] using hy
  | active c => simp [lists] at h
  | active_head =>
    simp only [lists] at h
    split_ifs at h with hc
    simp only [Option.some.injEq] at h
    subst h
    right
    refine ⟨hc, ?_⟩
    simpa [eq_comm] using hy

theorem instances_mem {A : Abs O C} {c : C} {o : O} (h : o ∈ A.instances c) : o ∈ A.objs.map Prod.fst := by
  unfold Abs.instances at h
  obtain ⟨x, hx, rfl⟩ := List.mem_map.1 h
  exact List.mem_map_of_mem (List.mem_of_mem_filter hx)

theorem free_entry {A : Abs O C} {o : O} (h : o ∉ A.objs.map Prod.fst) : (lists A).Free (.instance_entry o) := by
  intro p l hp hy
  rcases lists_mem hp hy with ⟨c, _, h1 | ⟨o', ho', h1⟩⟩ | ⟨_, h1 | ⟨c, _, h1⟩⟩
  · cases h1
  · cases h1; exact h (instances_mem ho')
  · cases h1
  · cases h1

theorem free_instances {A : Abs O C} {c : C} (h : c ∉ A.classes) : (lists A).Free (.instances c) := by
  intro p l hp hy
  rcases lists_mem hp hy with ⟨c, hc, h1 | ⟨o', ho', h1⟩⟩ | ⟨_, h1 | ⟨c, _, h1⟩⟩
  · cases h1; exact h hc
  · cases h1
  · cases h1
  · cases h1

theorem free_active {A : Abs O C} {c : C} (h : c ∉ A.classes) : (lists A).Free (.active c) := by
  intro p l hp hy
  rcases lists_mem hp hy with ⟨c, hc, h1 | ⟨o', ho', h1⟩⟩ | ⟨_, h1 | ⟨c, hc, h1⟩⟩
  · cases h1
  · cases h1
  · cases h1
  · cases h1; exact h hc

theorem free_head {A : Abs O C} (h : A.classes = []) : (lists A).Free .active_head := by
  intro p l hp hy
  rcases lists_mem hp hy with ⟨c, hc, h1 | ⟨o', ho', h1⟩⟩ | ⟨hc, _⟩
  · cases h1
  · cases h1
  · exact hc h

theorem Inv.no_instances {s : Objs O C} {A : Abs O C} (hI : Inv s A) {c : C} (hc : c ∉ A.classes) : A.instances c = [] := by
  unfold Abs.instances
  rw [List.map_eq_nil_iff, List.filter_eq_nil_iff]
  intro x hx
  simp only [decide_eq_true_eq]
  exact fun e => hc (e ▸ (hI.ref x hx).2.2)

theorem Inv.active_some {s : Objs O C} {A : Abs O C} (hI : Inv s A) {c : C} (hc : c ∈ A.classes) : s.heap.next (.active c) ≠ none := by
  have h0 : A.classes ≠ [] := fun e => by simp [e] at hc
  have h := hI.rep.lists .active_head (A.classes.map .active) (by simp [lists, h0])
  obtain ⟨l1, l2, e⟩ := List.append_of_mem (List.mem_map_of_mem (f := Addr.active (O := O)) hc)
  rw [e] at h
  rw [h.next_mid]
  simp

theorem Inv.create {s : Objs O C} {A : Abs O C} (hI : Inv s A) {o : O} (ho : o ∉ A.objs.map Prod.fst) (c : C) :
    ∃ s', create s o c = some s' ∧ Inv s' (A.after (.create o c)) := by
  -- the class
  obtain ⟨h1, eh1, hini, R1, S1⟩ : ∃ h1, (init_class s c).heap = h1 ∧ (init_class s c).initialized = Function.update s.initialized c true ∧
      Rep h1 (Function.update (lists A) (.instances c) (some ((A.instances c).map .instance_entry))) ∧
      ∀ y, y ≠ .instances c → Same s.heap h1 y := by
    by_cases hc : c ∈ A.classes
    · refine ⟨s.heap, ?_, ?_, ?_, fun y _ => ⟨rfl, rfl⟩⟩
      · simp [init_class, hI.ini, hc]
      · have : s.initialized c = true := by simp [hI.ini, hc]
        rw [init_class, if_pos this, ← this, Function.update_eq_self]
      · have : lists A (.instances c) = some ((A.instances c).map .instance_entry) := by simp [lists, hc]
        rw [← this, Function.update_eq_self]
        exact hI.rep
    · refine ⟨initHead s.heap (.instances c), ?_, ?_, ?_, (initHead_spec _ _).2⟩
      · simp [init_class, hI.ini, hc]
      · simp [init_class, hI.ini, hc]
      · rw [hI.no_instances hc]
        exact hI.rep.init (free_instances hc)
  have F1 : World.Free (Function.update (lists A) (.instances c) (some ((A.instances c).map .instance_entry))) (.instance_entry o) :=
    (free_entry ho).update (by simp) (by
      simp only [List.mem_map, Addr.instance_entry.injEq, exists_eq_right]
      exact fun h => ho (instances_mem h))
  obtain ⟨h2, e2, R2, S2⟩ := R1.addTail F1 (Function.update_self ..)
  rw [Function.update_idem] at R2
  have S2' : ∀ y, (∀ o, y ≠ .instance_entry o) → (∀ c, y ≠ .instances c) → Same s.heap h2 y := by
    intro y hy hy'
    have a := S2 y (by
      simp only [List.mem_cons, List.mem_map, not_or, not_exists, not_and]
      exact ⟨hy o, hy' c, fun x _ e => hy x e.symm⟩)
    have b := S1 y (hy' c)
    exact ⟨a.1.trans b.1, a.2.trans b.2⟩
  -- the list of classes
  have hl2 : ∀ a, (∀ c, a ≠ .instances c) → ∀ X, Function.update (lists A) (.instances c) X a = lists A a := fun a ha X =>
    Function.update_of_ne (ha c) _ _
  obtain ⟨h3, e3, R3, S3⟩ : ∃ h3, (if h2.next .active_head = none then initHead h2 .active_head else h2) = h3 ∧
      Rep h3 (Function.update (Function.update (lists A) (.instances c) (some ((A.instances c).map .instance_entry ++ [.instance_entry o])))
        .active_head (some (A.classes.map .active))) ∧ ∀ y, y ≠ .active_head → Same h2 h3 y := by
    have hs := (S2' .active_head (by simp) (by simp)).1
    by_cases h0 : A.classes = []
    · refine ⟨initHead h2 .active_head, ?_, ?_, (initHead_spec _ _).2⟩
      · rw [if_pos (hs.trans (hI.head h0))]
      · rw [h0]
        exact R2.init ((free_head h0).update (by simp) (by simp))
    · have hl : lists A .active_head = some (A.classes.map .active) := by simp [lists, h0]
      refine ⟨h2, ?_, ?_, fun y _ => ⟨rfl, rfl⟩⟩
      · rw [if_neg]
        rw [hs, (hI.rep.lists _ _ hl).next_head]
        simp
      · rwa [Function.update_eq_self_iff.2]
        rw [hl2 _ (by simp), hl]
  have S3' : ∀ c', Same s.heap h3 (.active c') := fun c' => by
    have a := S3 (.active c') (by simp)
    have b := S2' (.active c') (by simp) (by simp)
    exact ⟨a.1.trans b.1, a.2.trans b.2⟩
  -- the entry of the class
  have hinst : ∀ c', (A.after (.create o c)).instances c' = if c' = c then A.instances c ++ [o] else A.instances c' := by
    intro c'
    by_cases e : c' = c
    · subst e
      simp [Abs.after, Abs.instances, List.filter_append]
    · have : ¬ c = c' := fun h => e h.symm
      simp [Abs.after, Abs.instances, List.filter_append, e, this]
  obtain ⟨h4, e4, R4, S4⟩ : ∃ h4, (if h3.next (.active c) = none then list_add h3 (.active c) .active_head else some h3) = some h4 ∧
      Rep h4 (lists (A.after (.create o c))) ∧ ∀ c' ∉ (A.after (.create o c)).classes, h4.next (.active c') = none := by
    by_cases hc : c ∈ A.classes
    · have hcl : (A.after (.create o c)).classes = A.classes := by simp [Abs.after, hc]
      refine ⟨h3, ?_, ?_, fun c' hc' => ?_⟩
      · rw [if_neg]
        rw [(S3' c).1]
        exact hI.active_some hc
      · have h0 : A.classes ≠ [] := fun e => by simp [e] at hc
        convert R3 using 1
        funext a
        cases a with
        | instance_entry o' => simp [lists]
        | instances c' =>
          by_cases e : c' = c
          · subst e; simp [lists, hcl, hc, hinst]
          · simp [lists, hcl, hinst, e]
        | active c' => simp [lists]
        | active_head => simp [lists, hcl, h0]
      · rw [hcl] at hc'
        rw [(S3' c').1, hI.act c' hc']
    · have hcl : (A.after (.create o c)).classes = c :: A.classes := by simp [Abs.after, hc]
      have F3 : World.Free (Function.update (Function.update (lists A) (.instances c) (some ((A.instances c).map .instance_entry ++
          [.instance_entry o]))) .active_head (some (A.classes.map .active))) (.active c) :=
        ((free_active hc).update (by simp) (by simp)).update (by simp) (by simpa using hc)
      obtain ⟨h4, e4, R4, S4⟩ := R3.add F3 (Function.update_self ..)
      rw [Function.update_idem] at R4
      refine ⟨h4, ?_, ?_, fun c' hc' => ?_⟩
      · rw [if_pos, e4]
        rw [(S3' c).1, hI.act c hc]
      · convert R4 using 1
        funext a
        cases a with
        | instance_entry o' => simp [lists]
        | instances c' =>
          by_cases e : c' = c
          · subst e; simp [lists, hcl, hinst]
          · simp [lists, hcl, hinst, e]
        | active c' => simp [lists]
        | active_head => simp [lists, hcl]
      · rw [hcl, List.mem_cons, not_or] at hc'
        rw [(S4 (.active c') (by simpa using hc')).1, (S3' c').1, hI.act c' hc'.2]
  have hcl : ∀ c', c' ∈ (A.after (.create o c)).classes ↔ c' = c ∨ c' ∈ A.classes := by
    intro c'
    by_cases hc : c ∈ A.classes
    · simp only [Abs.after, hc, if_true]
      exact ⟨Or.inr, fun h => h.elim (fun e => e ▸ hc) id⟩
    · simp [Abs.after, hc]
  have hk : (init_class s c).refcount = s.refcount ∧ (init_class s c).cls = s.cls ∧ (init_class s c).nr_instances = s.nr_instances ∧
      (init_class s c).nr_creates = s.nr_creates ∧ (init_class s c).nr_frees = s.nr_frees := by
    unfold init_class
    split_ifs <;> exact ⟨rfl, rfl, rfl, rfl, rfl⟩
  refine ⟨{ heap := h4, initialized := Function.update s.initialized c true, refcount := Function.update s.refcount o 1, cls := Function.update s.cls o (some c), nr_instances := Function.update s.nr_instances c (s.nr_instances c + 1), nr_creates := Function.update s.nr_creates c (s.nr_creates c + 1), nr_frees := s.nr_frees }, ?_, ?_⟩
  · unfold Lists.create
    simp only [eh1, e2, Option.bind_eq_bind, Option.bind_some, e3, e4, hini, hk.1, hk.2.1, hk.2.2.1, hk.2.2.2.1, hk.2.2.2.2]
    split_ifs at e4 ⊢
    · rw [e4]
      rfl
    · rw [Option.some.inj e4]
      rfl
  · refine ⟨R4, fun c' => ?_, S4, fun h => ?_, ?_, fun x hx => ?_, fun x hx => ?_, fun o' ho' => ?_, fun c' => ?_, fun c' => ?_⟩
    · rw [Bool.eq_iff_iff, decide_eq_true_eq, hcl]
      by_cases e : c' = c
      · subst e; simp
      · simp [Function.update_apply, e, hI.ini]
    · exact absurd ((hcl c).2 (Or.inl rfl)) (by rw [h]; simp)
    · show ((A.objs ++ [(o, c, 1)]).map Prod.fst).Nodup
      rw [List.map_append, List.nodup_append]
      refine ⟨hI.nod, by simp, fun u hu v hv e => ho ?_⟩
      simp only [List.map_cons, List.map_nil, List.mem_singleton] at hv
      rw [← hv, ← e]
      exact hu
    · have hx : x ∈ A.objs ++ [(o, c, 1)] := hx
      rw [List.mem_append, List.mem_singleton] at hx
      rcases hx with hx | rfl
      · exact hI.pos x hx
      · simp
    · have hx : x ∈ A.objs ++ [(o, c, 1)] := hx
      rw [List.mem_append, List.mem_singleton] at hx
      rcases hx with hx | rfl
      · have : x.1 ≠ o := fun e => ho (e ▸ List.mem_map_of_mem hx)
        have h := hI.ref x hx
        exact ⟨by simpa [Function.update_apply, this] using h.1, by simpa [Function.update_apply, this] using h.2.1,
          (hcl _).2 (Or.inr h.2.2)⟩
      · exact ⟨by simp, by simp, (hcl _).2 (Or.inl rfl)⟩
    · have ho' : o' ∉ (A.objs ++ [(o, c, 1)]).map Prod.fst := ho'
      rw [List.map_append, List.mem_append, not_or] at ho'
      have : o' ≠ o := by simpa using ho'.2
      simpa [Function.update_apply, this] using hI.ref0 o' ho'.1
    · rw [hinst]
      by_cases e : c' = c
      · subst e; simp [hI.cnt]
      · simp [Function.update_apply, e, hI.cnt]
    · have := hI.bal c'
      by_cases e : c' = c
      · subst e; simp only [Function.update_self]; omega
      · simpa [Function.update_apply, e] using this

/-- the objects with one number of references changed -/
theorem instances_map {A : Abs O C} {f : O × C × ℕ → O × C × ℕ} (hf : ∀ x, (f x).1 = x.1 ∧ (f x).2.1 = x.2.1) (c : C) :
    Abs.instances { A with objs := A.objs.map f } c = A.instances c := by
  unfold Abs.instances
  rw [List.filter_map, List.map_map]
  have : (fun x : O × C × ℕ => decide (x.2.1 = c)) ∘ f = fun x => decide (x.2.1 = c) := by
    funext x
    simp [(hf x).2]
  rw [this]
  exact List.map_congr_left fun x _ => (hf x).1

theorem Inv.map {s : Objs O C} {A : Abs O C} (hI : Inv s A) {f : O × C × ℕ → O × C × ℕ} (hf : ∀ x, (f x).1 = x.1 ∧ (f x).2.1 = x.2.1)
    (r : O → ℕ) (h0 : ∀ x ∈ A.objs, (f x).2.2 ≠ 0 ∧ r x.1 = (f x).2.2) (hr : ∀ o, o ∉ A.objs.map Prod.fst → r o = 0) :
    Inv { s with refcount := r } { A with objs := A.objs.map f } := by
  have hfst : (A.objs.map f).map Prod.fst = A.objs.map Prod.fst := by
    rw [List.map_map]
    exact List.map_congr_left fun x _ => (hf x).1
  have hl : lists { A with objs := A.objs.map f } = lists A := by
    funext a
    cases a <;> simp only [lists, instances_map hf]
  refine ⟨hl ▸ hI.rep, hI.ini, hI.act, hI.head, hfst ▸ hI.nod, fun x hx => ?_, fun x hx => ?_, fun o ho => ?_, fun c => ?_, hI.bal⟩
  · obtain ⟨y, hy, rfl⟩ := List.mem_map.1 hx
    exact (h0 y hy).1
  · obtain ⟨y, hy, rfl⟩ := List.mem_map.1 hx
    rw [(hf y).1, (hf y).2]
    exact ⟨(h0 y hy).2, (hI.ref y hy).2⟩
  · refine hr o ?_
    rw [← hfst]
    exact ho
  · rw [instances_map hf]
    exact hI.cnt c

theorem Inv.unique {s : Objs O C} {A : Abs O C} (hI : Inv s A) {o : O} (ho : o ∈ A.objs.map Prod.fst) :
    ∃ c n, (o, c, n) ∈ A.objs ∧ ∀ x ∈ A.objs, x.1 = o → x = (o, c, n) := by
  obtain ⟨⟨o', c, n⟩, hx, e⟩ := List.mem_map.1 ho
  have e : o' = o := e
  subst e
  exact ⟨c, n, hx, fun y hy e => List.inj_on_of_nodup_map hI.nod hy hx e⟩

theorem Inv.get {s : Objs O C} {A : Abs O C} (hI : Inv s A) {o : O} (ho : o ∈ A.objs.map Prod.fst) :
    ∃ s', get s o = some s' ∧ Inv s' (A.after (.get o)) := by
  obtain ⟨c, n, hx, hu⟩ := hI.unique ho
  have hr := (hI.ref _ hx).1
  have hp := hI.pos _ hx
  refine ⟨{ s with refcount := Function.update s.refcount o (s.refcount o + 1) }, ?_, hI.map (fun x => ?_) _ (fun x hx' => ?_) fun o' ho' => ?_⟩
  · unfold Lists.get
    rw [if_pos]
    simp only at hr hp
    omega
  · split_ifs <;> exact ⟨rfl, rfl⟩
  · by_cases e : x.1 = o
    · have := hu x hx' e
      subst this
      simp only at hr
      simp [hr]
    · simpa [e, Function.update_apply] using ⟨hI.pos x hx', (hI.ref x hx').1⟩
  · have : o' ≠ o := fun e => ho' (e ▸ ho)
    simpa [Function.update_apply, this] using hI.ref0 o' ho'

theorem Inv.put {s : Objs O C} {A : Abs O C} (hI : Inv s A) {o : O} (ho : o ∈ A.objs.map Prod.fst) :
    ∃ s', put s o = some s' ∧ Inv s' (A.after (.put o)) := by
  obtain ⟨c, n, hx, hu⟩ := hI.unique ho
  have hr : s.refcount o = n := (hI.ref _ hx).1
  have hp : n ≠ 0 := hI.pos _ hx
  have hc : s.cls o = some c := (hI.ref _ hx).2.1
  have hcc : c ∈ A.classes := (hI.ref _ hx).2.2
  by_cases hn : n > 1
  · have e : A.after (.put o) = { A with objs := A.objs.map fun x => if x.1 = o then (x.1, x.2.1, x.2.2 - 1) else x } := by
      simp only [Abs.after, Abs.mk.injEq, and_true]
      refine List.filter_eq_self.2 fun x hx' => ?_
      obtain ⟨y, hy, rfl⟩ := List.mem_map.1 hx'
      by_cases e : y.1 = o
      · have := hu y hy e
        subst this
        simp only [if_true, ne_eq, decide_not, Bool.not_eq_eq_eq_not, Bool.not_true, decide_eq_false_iff_not]
        omega
      · simpa [e] using hI.pos y hy
    rw [e]
    refine ⟨{ s with refcount := Function.update s.refcount o (s.refcount o - 1) }, ?_, hI.map (fun x => ?_) _ (fun x hx' => ?_) fun o' ho' => ?_⟩
    · unfold Lists.put
      rw [if_pos (by omega)]
    · split_ifs <;> exact ⟨rfl, rfl⟩
    · by_cases e : x.1 = o
      · have := hu x hx' e
        subst this
        simp only [if_true, Function.update_self, hr, and_true]
        omega
      · simpa [e, Function.update_apply] using ⟨hI.pos x hx', (hI.ref x hx').1⟩
    · have : o' ≠ o := fun e => ho' (e ▸ ho)
      simpa [Function.update_apply, this] using hI.ref0 o' ho'
  · have hn1 : n = 1 := by omega
    subst hn1
    have e : A.after (.put o) = { A with objs := A.objs.filter fun x => x.1 ≠ o } := by
      simp only [Abs.after, Abs.mk.injEq, and_true]
      rw [List.filter_map]
      have h1 : A.objs.filter ((fun x : O × C × ℕ => decide (x.2.2 ≠ 0)) ∘ fun x => if x.1 = o then (x.1, x.2.1, x.2.2 - 1) else x) =
          A.objs.filter fun x => x.1 ≠ o := by
        refine List.filter_congr fun x hx' => ?_
        by_cases e : x.1 = o
        · have := hu x hx' e
          subst this
          simp
        · simpa [e] using hI.pos x hx'
      rw [h1]
      refine (List.map_congr_left fun x hx' => ?_).trans (List.map_id _)
      have : x.1 ≠ o := by simpa using (List.mem_filter.1 hx').2
      simp [this]
    have hinst : ∀ c', (A.after (.put o)).instances c' = (A.instances c').filter fun x => x ≠ o := by
      intro c'
      rw [e]
      unfold Abs.instances
      rw [List.filter_map, List.filter_filter, List.filter_filter]
      congr 1
      refine List.filter_congr fun x _ => ?_
      simp [Bool.and_comm]
    have ho' : o ∈ A.instances c := List.mem_map.2 ⟨(o, c, 1), List.mem_filter.2 ⟨hx, by simp⟩, rfl⟩
    obtain ⟨m1, m2, hm⟩ := List.append_of_mem ho'
    have hL : lists A (.instances c) = some (m1.map .instance_entry ++ .instance_entry o :: m2.map .instance_entry) := by
      simp [lists, hcc, hm]
    obtain ⟨h', e1, R1, S1, -⟩ := hI.rep.del hL
    rw [← hI.rep.without_eq hL] at R1
    have hw : (lists A).without (.instance_entry o) = lists (A.after (.put o)) := by
      have hcls : (A.after (.put o)).classes = A.classes := rfl
      funext a
      cases a with
      | instance_entry o' => simp [World.without, lists]
      | instances c' =>
        simp only [World.without, lists, hinst, hcls]
        split_ifs
        · rw [Option.map_some, List.filter_map]
          congr 2
          refine List.filter_congr fun x _ => ?_
          simp
        · rfl
      | active c' => simp [World.without, lists]
      | active_head =>
        simp only [World.without, lists, hcls]
        split_ifs
        · rfl
        · rw [Option.map_some, List.filter_map]
          congr 2
          exact List.filter_eq_self.2 fun x _ => by simp
    rw [hw] at R1
    have S' : ∀ a, (∀ o, a ≠ .instance_entry o) → (∀ c, a ≠ .instances c) → Same s.heap h' a := fun a h1 h2 => S1 a (by
      simp only [List.mem_cons, List.mem_append, List.mem_map, not_or, not_exists, not_and]
      exact ⟨h2 c, fun x _ e => h1 x e.symm, h1 o, fun x _ e => h1 x e.symm⟩)
    have hnod : ∀ c', (A.instances c').Nodup := fun c' => by
      unfold Abs.instances
      exact hI.nod.sublist (List.Sublist.map _ List.filter_sublist)
    have hnin : ∀ c', c' ≠ c → o ∉ A.instances c' := by
      intro c' hc' h
      obtain ⟨x, hx', e⟩ := List.mem_map.1 h
      rw [List.mem_filter] at hx'
      have := hu x hx'.1 e
      subst this
      exact hc' (by simpa [eq_comm] using hx'.2)
    have hlen : (A.instances c).length = ((A.after (.put o)).instances c).length + 1 := by
      rw [hinst, hm, filter_cut (hm ▸ hnod c)]
      simp
      omega
    refine ⟨{ heap := h', initialized := s.initialized, refcount := Function.update s.refcount o 0, cls := s.cls, nr_instances := Function.update s.nr_instances c (s.nr_instances c - 1), nr_creates := s.nr_creates, nr_frees := Function.update s.nr_frees c (s.nr_frees c + 1) },
      by unfold Lists.put; rw [if_neg (by omega)]; simp only [hc, e1, Option.bind_eq_bind, Option.bind_some]; rfl, R1, hI.ini,
      fun c' hc' => ?_, fun h => ?_, ?_, fun x hx' => ?_, fun x hx' => ?_, fun o' ho' => ?_, fun c' => ?_, fun c' => ?_⟩
    · exact (S' (.active c') (by simp) (by simp)).1.trans (hI.act c' hc')
    · exact (S' .active_head (by simp) (by simp)).1.trans (hI.head h)
    · rw [e]
      exact hI.nod.sublist (List.Sublist.map _ List.filter_sublist)
    · rw [e] at hx'
      exact hI.pos x (List.mem_of_mem_filter hx')
    · rw [e] at hx'
      have := List.mem_filter.1 hx'
      have hne : x.1 ≠ o := by simpa using this.2
      have h := hI.ref x this.1
      exact ⟨by simpa [Function.update_apply, hne] using h.1, h.2⟩
    · by_cases eo : o' = o
      · subst eo; simp
      · simp only [Function.update_apply, eo, if_false]
        refine hI.ref0 o' fun h => ho' ?_
        rw [e]
        obtain ⟨x, hx', rfl⟩ := List.mem_map.1 h
        exact List.mem_map_of_mem (List.mem_filter.2 ⟨hx', by simpa using eo⟩)
    · by_cases ec : c' = c
      · subst ec
        simp only [Function.update_self, hI.cnt, hlen]
        push_cast
        ring
      · simp only [Function.update_apply, ec, if_false, hI.cnt, hinst]
        rw [List.filter_eq_self.2]
        intro x hx'
        simp only [ne_eq, decide_not, Bool.not_eq_eq_eq_not, Bool.not_true, decide_eq_false_iff_not]
        exact fun e => hnin c' ec (e ▸ hx')
    · have := hI.bal c'
      by_cases ec : c' = c
      · subst ec; simp only [Function.update_self]; omega
      · simpa [Function.update_apply, ec] using this

theorem Inv.step {s : Objs O C} {A : Abs O C} (hI : Inv s A) {a : Act O C} (ha : A.Allowed a) :
    ∃ s', step s a = some s' ∧ Inv s' (A.after a) := by
  cases a with
  | create o c => exact hI.create ha c
  | get o => exact hI.get ha
  | put o => exact hI.put ha

theorem Inv.run {s : Objs O C} {A : Abs O C} (hI : Inv s A) (as : List (Act O C)) (ha : A.AllowedAll as) :
    ∃ s', as.foldlM Lists.step s = some s' ∧ Inv s' (as.foldl Abs.after A) := by
  induction as generalizing s A with
  | nil => exact ⟨s, rfl, hI⟩
  | cons a as ih =>
    obtain ⟨s1, e1, h1⟩ := hI.step ha.1
    obtain ⟨s2, e2, h2⟩ := ih h1 ha.2
    exact ⟨s2, by rw [List.foldlM_cons, e1]; exact e2, h2⟩

theorem sum_one {l : List C} (hn : l.Nodup) {k : C} (hk : k ∈ l) : (l.map fun c => if k = c then (1 : ℤ) else 0).sum = 1 := by
  induction l with
  | nil => simp at hk
  | cons c l ih =>
    rw [List.nodup_cons] at hn
    rw [List.map_cons, List.sum_cons]
    by_cases e : k = c
    · subst e
      rw [if_pos rfl]
      have : (l.map fun c => if k = c then (1 : ℤ) else 0) = l.map fun _ => 0 :=
        List.map_congr_left fun x hx => if_neg fun (e : k = x) => hn.1 (by rw [e]; exact hx)
      rw [this]
      simp
    · rw [if_neg e, zero_add, ih hn.2 ((List.mem_cons.1 hk).resolve_left e)]

theorem sum_classes {objs : List (O × C × ℕ)} {l : List C} (hn : l.Nodup) (h : ∀ x ∈ objs, x.2.1 ∈ l) :
    (l.map fun c => (((objs.filter fun x => x.2.1 = c).map Prod.fst).length : ℤ)).sum = objs.length := by
  induction objs with
  | nil => simp
  | cons x objs ih =>
    have e : (l.map fun c => ((((x :: objs).filter fun x => x.2.1 = c).map Prod.fst).length : ℤ)) =
        l.map fun c => (if x.2.1 = c then (1 : ℤ) else 0) + (((objs.filter fun x => x.2.1 = c).map Prod.fst).length : ℤ) := by
      refine List.map_congr_left fun c _ => ?_
      by_cases hc : x.2.1 = c
      · rw [List.filter_cons_of_pos (by simpa using hc), if_pos hc]
        simp
        ring
      · rw [List.filter_cons_of_neg (by simpa using hc), if_neg hc, zero_add]
    rw [e, List.sum_map_add, ih fun x hx => h x (by simp [hx]), sum_one hn (h x (by simp))]
    simp
    ring

end Psc.Lists
