import Verif.Lemmas.Heating
import Verif.Lemmas.CudaCollisionRel
import Verif.Spec.CudaHeating

/-!
# Lemmas: the heating kernel and the generators
-/

namespace Psc.CudaHeat

open Psc.Cuda Psc.CudaPrts
open Psc.Heating (Params get_H)

/-! ## generators -/

/-- every generator is on its own sequence; no value has been drawn twice, and those drawn are behind the generators -/
structure GenOk (rng : Rng) (log : Log) : Prop where
  seq : ∀ (id : ℕ) (s : Stream), rng[id]? = some s → s.seq = id
  nodup : log.Nodup
  lt : ∀ x ∈ log, ∃ s : Stream, rng[x.1]? = some s ∧ x.2 < s.pos

theorem GenOk.add {rng : Rng} {log new : Log} (h : GenOk rng log) {id : ℕ} {s : Stream} (hs : rng[id]? = some s) {k : ℕ}
    (hn : new.Nodup) (hx : ∀ x ∈ new, x.1 = s.seq ∧ s.pos ≤ x.2 ∧ x.2 < s.pos + k) :
    GenOk (rng.set id ⟨s.seq, s.pos + k⟩) (log ++ new) := by
  have hseq := h.seq id s hs
  have hlt : id < rng.length := by
    rw [List.getElem?_eq_some_iff] at hs
    exact hs.1
  refine ⟨fun j t ht => ?_, ?_, fun x hxm => ?_⟩
  · by_cases hj : id = j
    · subst hj
      rw [List.getElem?_set_self hlt, Option.some.injEq] at ht
      subst ht
      exact hseq
    · rw [List.getElem?_set_ne hj] at ht
      exact h.seq j t ht
  · rw [List.nodup_append]
    refine ⟨h.nodup, hn, fun a ha b hb hab => ?_⟩
    subst hab
    obtain ⟨t, h1, h2⟩ := h.lt a ha
    obtain ⟨h3, h4, -⟩ := hx a hb
    rw [h3, hseq, hs, Option.some.injEq] at h1
    subst h1
    omega
  · rcases List.mem_append.1 hxm with hm | hm
    · obtain ⟨t, h1, h2⟩ := h.lt x hm
      by_cases hj : id = x.1
      · subst hj
        rw [hs, Option.some.injEq] at h1
        subst h1
        exact ⟨_, List.getElem?_set_self hlt, by dsimp only; omega⟩
      · exact ⟨t, by rw [List.getElem?_set_ne hj]; exact h1, h2⟩
    · obtain ⟨h3, h4, h5⟩ := hx x hm
      rw [h3, hseq]
      exact ⟨_, List.getElem?_set_self hlt, h5⟩

theorem draw_fold {k : ℕ → ℕ} : ∀ (order : List ℕ) (rng : Rng) (log : Log), (∀ id ∈ order, id < rng.length) → GenOk rng log →
    ∃ rng' log', drawKernel k order (rng, log) = some (rng', log') ∧ rng'.length = rng.length ∧ GenOk rng' log' := by
  intro order
  induction order with
  | nil => intro rng log _ h; exact ⟨rng, log, rfl, rfl, h⟩
  | cons id order ih =>
    intro rng log hl h
    have h0 := hl id List.mem_cons_self
    have hs := List.getElem?_eq_getElem h0
    obtain ⟨rng', log', h1, h2, h3⟩ := ih (rng.set id ⟨rng[id].seq, rng[id].pos + k id⟩)
      (log ++ (List.range (k id)).map fun i => (rng[id].seq, rng[id].pos + i))
      (fun j hj => by rw [List.length_set]; exact hl j (List.mem_cons_of_mem _ hj))
      (h.add hs (List.nodup_range.map fun a b hab => by simpa using hab) fun x hx => by
        obtain ⟨i, hi, rfl⟩ := List.mem_map.1 hx
        have := List.mem_range.1 hi
        exact ⟨rfl, by dsimp only; omega, by dsimp only; omega⟩)
    refine ⟨rng', log', ?_, by rw [h2, List.length_set], h3⟩
    unfold drawKernel at h1 ⊢
    rw [List.foldlM_cons]
    have : drawThread k (rng, log) id = some (rng.set id ⟨rng[id].seq, rng[id].pos + k id⟩,
        log ++ (List.range (k id)).map fun i => (rng[id].seq, rng[id].pos + i)) := by
      unfold drawThread
      dsimp only
      rw [hs]
      simp [write, h0]
    rw [this]
    exact h1

/-! ## one thread -/

/-- the particle after heating with rate `H` -/
noncomputable def out (N : ℕ → ℕ → ℝ) (dt H : ℝ) : Option (ℕ × ℕ) → Sto ℝ → Sto ℝ
  | none, q => q
  | some (s, i), q => kick N dt H ⟨s, i⟩ q

theorem heat_fold {F : Foil} {N : ℕ → ℕ → ℝ} {xbs : List (R3 ℝ)} {Hf : ℕ → ℝ} :
    ∀ (L : List (Block × ℕ)) (st : List (Sto ℝ)) (s : Stream) (log : Log), (L.map Prod.snd).Nodup →
      (∀ w ∈ L, ∃ q xb, st[w.2]? = some q ∧ xbs[w.1.p]? = some xb ∧
        get_H F.spot F.yz (fun d => q.x d + xb d) q.kind = some (Hf w.2)) →
      ∃ (D : ℕ → Option (ℕ × ℕ)) (st' : List (Sto ℝ)) (k : ℕ),
        L.foldlM (heatOne F N xbs) (st, s, log) = some (st', ⟨s.seq, s.pos + k⟩, log ++ L.flatMap fun w => values (D w.2)) ∧
        st'.length = st.length ∧
        (∀ i : ℕ, st'[i]? = if i ∈ L.map Prod.snd then (st[i]?).map (out N F.dt (Hf i) (D i)) else st[i]?) ∧
        (∀ w ∈ L, (D w.2).isSome ↔ 0 < Hf w.2) ∧
        (L.flatMap fun w => values (D w.2)).Nodup ∧
        ∀ x ∈ (L.flatMap fun w => values (D w.2)), x.1 = s.seq ∧ s.pos ≤ x.2 ∧ x.2 < s.pos + k := by
  intro L
  induction L with
  | nil =>
    intro st s log _ _
    refine ⟨fun _ => none, st, 0, ?_, rfl, fun i => by simp, fun w hw => (by cases hw), List.nodup_nil, fun x hx => (by cases hx)⟩
    show some (st, s, log) = some (st, s, log ++ [])
    rw [List.append_nil]
  | cons w L ih =>
    intro st s log hn h
    obtain ⟨q, xb, w1, w2, w3⟩ := h w List.mem_cons_self
    have hlt : w.2 < st.length := by
      rw [List.getElem?_eq_some_iff] at w1
      exact w1.1
    rw [List.map_cons, List.nodup_cons] at hn
    by_cases hH : 0 < Hf w.2
    · have hs : heatOne F N xbs (st, s, log) w = some (st.set w.2 (kick N F.dt (Hf w.2) s q), ⟨s.seq, s.pos + 3⟩,
          log ++ [(s.seq, s.pos), (s.seq, s.pos + 1), (s.seq, s.pos + 2)]) := by
        unfold heatOne
        dsimp only
        rw [w2, w1]
        simp only [Option.bind_eq_bind, Option.bind_some]
        rw [w3]
        simp [hH, write, hlt]
      obtain ⟨D, st', k, e1, e2, e3, e4, e5, e6⟩ := ih (st.set w.2 (kick N F.dt (Hf w.2) s q)) ⟨s.seq, s.pos + 3⟩
        (log ++ [(s.seq, s.pos), (s.seq, s.pos + 1), (s.seq, s.pos + 2)]) hn.2 (by
          intro v hv
          obtain ⟨q', xb', v1, v2⟩ := h v (List.mem_cons_of_mem _ hv)
          have : w.2 ≠ v.2 := fun hc => hn.1 (hc ▸ List.mem_map.2 ⟨v, hv, rfl⟩)
          exact ⟨q', xb', by rw [List.getElem?_set_ne this]; exact v1, v2⟩)
      have hD : ∀ v ∈ L, Function.update D w.2 (some (s.seq, s.pos)) v.2 = D v.2 := by
        intro v hv
        rw [Function.update_of_ne]
        exact fun hc => hn.1 (hc ▸ List.mem_map.2 ⟨v, hv, rfl⟩)
      have hfm : ((w :: L).flatMap fun v => values (Function.update D w.2 (some (s.seq, s.pos)) v.2)) =
          [(s.seq, s.pos), (s.seq, s.pos + 1), (s.seq, s.pos + 2)] ++ L.flatMap fun v => values (D v.2) := by
        rw [List.flatMap_cons, Function.update_self]
        congr 1
        exact List.flatMap_congr fun v hv => by rw [hD v hv]
      refine ⟨Function.update D w.2 (some (s.seq, s.pos)), st', 3 + k, ?_, by rw [e2, List.length_set], fun i => ?_, ?_, ?_, ?_⟩
      · rw [List.foldlM_cons, hs, hfm]
        refine Eq.trans e1 ?_
        rw [List.append_assoc, ← Nat.add_assoc]
      · rw [e3 i]
        simp only [List.map_cons, List.mem_cons]
        by_cases hm : i ∈ L.map Prod.snd
        · have hne : w.2 ≠ i := fun hc => hn.1 (hc ▸ hm)
          rw [if_pos hm, if_pos (.inr hm), List.getElem?_set_ne hne, Function.update_of_ne (Ne.symm hne)]
        · rw [if_neg hm]
          by_cases hw : i = w.2
          · subst hw
            rw [if_pos (.inl rfl), List.getElem?_set_self hlt, Function.update_self, w1]
            rfl
          · rw [if_neg (by tauto), List.getElem?_set_ne (Ne.symm hw)]
      · intro v hv
        rcases List.mem_cons.1 hv with rfl | hv
        · rw [Function.update_self]
          simp [hH]
        · rw [hD v hv]
          exact e4 v hv
      · rw [hfm, List.nodup_append]
        refine ⟨by simp, e5, fun a ha b hb hab => ?_⟩
        subst hab
        obtain ⟨-, h4, -⟩ := e6 a hb
        dsimp only at h4
        simp only [List.mem_cons, List.not_mem_nil, or_false] at ha
        rcases ha with rfl | rfl | rfl <;> dsimp only at h4 <;> omega
      · rw [hfm]
        intro x hx
        rcases List.mem_append.1 hx with hx | hx
        · simp only [List.mem_cons, List.not_mem_nil, or_false] at hx
          rcases hx with rfl | rfl | rfl <;> refine ⟨rfl, ?_, ?_⟩ <;> dsimp only <;> omega
        · obtain ⟨h3, h4, h5⟩ := e6 x hx
          dsimp only at h3 h4 h5
          exact ⟨h3, by omega, by omega⟩
    · have hs : heatOne F N xbs (st, s, log) w = some (st, s, log) := by
        unfold heatOne
        dsimp only
        rw [w2, w1]
        simp only [Option.bind_eq_bind, Option.bind_some]
        rw [w3]
        simp [hH]
      obtain ⟨D, st', k, e1, e2, e3, e4, e5, e6⟩ := ih st s log hn.2 fun v hv => h v (List.mem_cons_of_mem _ hv)
      have hD : ∀ v ∈ L, Function.update D w.2 none v.2 = D v.2 := by
        intro v hv
        rw [Function.update_of_ne]
        exact fun hc => hn.1 (hc ▸ List.mem_map.2 ⟨v, hv, rfl⟩)
      have hfm : ((w :: L).flatMap fun v => values (Function.update D w.2 none v.2)) = L.flatMap fun v => values (D v.2) := by
        rw [List.flatMap_cons, Function.update_self]
        show [] ++ _ = _
        rw [List.nil_append]
        exact List.flatMap_congr fun v hv => by rw [hD v hv]
      refine ⟨Function.update D w.2 none, st', k, ?_, e2, fun i => ?_, ?_, ?_, ?_⟩
      · rw [List.foldlM_cons, hs, hfm]
        exact e1
      · rw [e3 i]
        simp only [List.map_cons, List.mem_cons]
        by_cases hm : i ∈ L.map Prod.snd
        · have hne : w.2 ≠ i := fun hc => hn.1 (hc ▸ hm)
          rw [if_pos hm, if_pos (.inr hm), Function.update_of_ne (Ne.symm hne)]
        · rw [if_neg hm]
          by_cases hw : i = w.2
          · subst hw
            rw [if_pos (.inl rfl), Function.update_self, w1]
            rfl
          · rw [if_neg (by tauto)]
      · intro v hv
        rcases List.mem_cons.1 hv with rfl | hv
        · rw [Function.update_self]
          simp [hH]
        · rw [hD v hv]
          exact e4 v hv
      · rw [hfm]
        exact e5
      · rw [hfm]
        exact e6

/-! ## all threads -/

theorem threads_fold {F : Foil} {N : ℕ → ℕ → ℝ} {xbs : List (R3 ℝ)} {off : List ℕ} {bss : List (List Block)} {Hf : ℕ → ℝ}
    {items : ℕ → List (Block × ℕ)} :
    ∀ (order : List ℕ) (st : List (Sto ℝ)) (rng : Rng) (log : Log), ((order.flatMap items).map Prod.snd).Nodup →
      (∀ id ∈ order, id < rng.length ∧ ∃ bs, bss[id / 128]? = some bs ∧ threadItems off bs (id % 128) = some (items id)) →
      (∀ w ∈ order.flatMap items, ∃ q xb, st[w.2]? = some q ∧ xbs[w.1.p]? = some xb ∧
        get_H F.spot F.yz (fun d => q.x d + xb d) q.kind = some (Hf w.2)) → GenOk rng log →
      ∃ (D : ℕ → Option (ℕ × ℕ)) (st' : List (Sto ℝ)) (rng' : Rng),
        heatKernel F N xbs off bss order (st, rng, log) =
          some (st', rng', log ++ (order.flatMap items).flatMap fun w => values (D w.2)) ∧
        st'.length = st.length ∧ rng'.length = rng.length ∧
        (∀ i : ℕ, st'[i]? = if i ∈ (order.flatMap items).map Prod.snd then (st[i]?).map (out N F.dt (Hf i) (D i)) else st[i]?) ∧
        (∀ w ∈ order.flatMap items, (D w.2).isSome ↔ 0 < Hf w.2) ∧
        GenOk rng' (log ++ (order.flatMap items).flatMap fun w => values (D w.2)) := by
  intro order
  induction order with
  | nil =>
    intro st rng log _ _ _ hg
    refine ⟨fun _ => none, st, rng, ?_, rfl, rfl, fun i => by simp, fun w hw => by simp at hw, ?_⟩
    · show some (st, rng, log) = some (st, rng, log ++ [])
      rw [List.append_nil]
    · show GenOk rng (log ++ [])
      rw [List.append_nil]
      exact hg
  | cons id order ih =>
    intro st rng log hn hb h hg
    rw [List.flatMap_cons, List.map_append, List.nodup_append] at hn
    obtain ⟨n1, n2, n3⟩ := hn
    obtain ⟨hl, bs, b1, b2⟩ := hb id List.mem_cons_self
    have hs := List.getElem?_eq_getElem hl
    obtain ⟨D₁, st₁, k, e1, e2, e3, e4, e5, e6⟩ := heat_fold (F := F) (N := N) (xbs := xbs) (Hf := Hf) (items id) st rng[id] log n1
      fun w hw => h w (by rw [List.flatMap_cons]; exact List.mem_append_left _ hw)
    have hnot : ∀ w ∈ order.flatMap items, w.2 ∉ (items id).map Prod.snd := by
      intro w hw hc
      exact n3 _ hc _ (List.mem_map_of_mem hw) rfl
    obtain ⟨D₂, st₂, rng₂, f1, f2, f3, f4, f5, f6⟩ := ih st₁ (rng.set id ⟨rng[id].seq, rng[id].pos + k⟩)
      (log ++ (items id).flatMap fun w => values (D₁ w.2)) n2
      (fun j hj => by
        rw [List.length_set]
        exact hb j (List.mem_cons_of_mem _ hj))
      (fun w hw => by
        rw [e3, if_neg (hnot w hw)]
        exact h w (by rw [List.flatMap_cons]; exact List.mem_append_right _ hw))
      (hg.add hs e5 e6)
    classical
    set D : ℕ → Option (ℕ × ℕ) := fun i => if i ∈ (items id).map Prod.snd then D₁ i else D₂ i with hD
    have d1 : ((items id).flatMap fun w => values (D w.2)) = (items id).flatMap fun w => values (D₁ w.2) :=
      List.flatMap_congr fun w hw => by rw [hD]; simp only [if_pos (List.mem_map_of_mem (f := Prod.snd) hw)]
    have d2 : ((order.flatMap items).flatMap fun w => values (D w.2)) = (order.flatMap items).flatMap fun w => values (D₂ w.2) :=
      List.flatMap_congr fun w hw => by rw [hD]; simp only [if_neg (hnot w hw)]
    have hlog : log ++ ((id :: order).flatMap items).flatMap (fun w => values (D w.2)) =
        log ++ ((items id).flatMap fun w => values (D₁ w.2)) ++ (order.flatMap items).flatMap fun w => values (D₂ w.2) := by
      rw [List.flatMap_cons, List.flatMap_append, d1, d2, List.append_assoc]
    refine ⟨D, st₂, rng₂, ?_, by rw [f2, e2], by rw [f3, List.length_set], fun i => ?_, fun w hw => ?_, ?_⟩
    · unfold heatKernel at f1 ⊢
      rw [List.foldlM_cons]
      have : heatThread F N xbs off bss (st, rng, log) id = some (st₁, rng.set id ⟨rng[id].seq, rng[id].pos + k⟩,
          log ++ (items id).flatMap fun w => values (D₁ w.2)) := by
        unfold heatThread
        dsimp only
        rw [b1, hs]
        simp only [Option.bind_eq_bind, Option.bind_some]
        rw [b2]
        simp only [Option.bind_some]
        rw [e1]
        simp [write, hl]
      rw [this, hlog]
      exact f1
    · rw [f4, e3]
      rw [List.flatMap_cons, List.map_append]
      simp only [List.mem_append]
      by_cases h1 : i ∈ (items id).map Prod.snd
      · have h2 : i ∉ (order.flatMap items).map Prod.snd := fun hc => n3 _ h1 _ hc rfl
        rw [if_neg h2, if_pos h1, if_pos (.inl h1), hD]
        simp only [if_pos h1]
      · by_cases h2 : i ∈ (order.flatMap items).map Prod.snd
        · rw [if_pos h2, if_neg h1, if_pos (.inr h2), hD]
          simp only [if_neg h1]
        · rw [if_neg h2, if_neg h1, if_neg (by tauto)]
    · rw [List.flatMap_cons] at hw
      rcases List.mem_append.1 hw with hw | hw
      · rw [hD]
        simp only [if_pos (List.mem_map_of_mem (f := Prod.snd) hw)]
        exact e4 w hw
      · rw [hD]
        simp only [if_neg (hnot w hw)]
        exact f5 w hw
    · rw [hlog]
      exact f6

/-! ## what the threads handle -/

theorem flatMap_swap {α β γ : Type} (l : List α) (m : List β) (f : α → β → List γ) :
    (l.flatMap fun a => m.flatMap fun b => f a b).Perm (m.flatMap fun b => l.flatMap fun a => f a b) := by
  have := Multiset.bind_bind (l : Multiset α) (m : Multiset β) (f := fun a b => (f a b : Multiset γ))
  simp only [Multiset.coe_bind] at this
  exact Multiset.coe_eq_coe.1 this

/-- the particles thread `id` handles -/
def itemsOf (off : ℕ → ℕ) (bss : List (List Block)) (id : ℕ) : List (Block × ℕ) :=
  (bss.getD (id / 128) []).flatMap fun b => (inBlock 128 (off b.bid) (off (b.bid + 1)) (id % 128)).map fun n => (b, n)

theorem threadItems_eq {g : Ix} {d_off : List ℕ} {off : ℕ → ℕ} (ho : Offsets g d_off off) (tid : ℕ) :
    ∀ bs : List Block, (∀ b ∈ bs, b.bid < g.nBlocks) → threadItems d_off bs tid =
      some (bs.flatMap fun b => (inBlock 128 (off b.bid) (off (b.bid + 1)) tid).map fun n => (b, n)) := by
  have key : ∀ bs : List Block, (∀ b ∈ bs, b.bid < g.nBlocks) →
      bs.mapM (fun b => (threadWork d_off 128 b tid).map fun ns => ns.map fun n => (b, n)) =
        some (bs.map fun b => (inBlock 128 (off b.bid) (off (b.bid + 1)) tid).map fun n => (b, n)) := by
    intro bs
    induction bs with
    | nil => intro _; rfl
    | cons b bs ih =>
      intro h
      have hb := h b List.mem_cons_self
      have h1 : d_off[b.bid]? = some (off b.bid) := by
        rw [ho, List.getElem?_map, List.getElem?_range (by omega)]; rfl
      have h2 : d_off[b.bid + 1]? = some (off (b.bid + 1)) := by
        rw [ho, List.getElem?_map, List.getElem?_range (by omega)]; rfl
      rw [List.mapM_cons, ih fun b hb => h b (List.mem_cons_of_mem _ hb)]
      simp [threadWork, h1, h2]
  intro bs h
  unfold threadItems
  rw [key bs h, List.flatMap_def]
  rfl

theorem items_perm {g : Ix} {off : ℕ → ℕ} {bss : List (List Block)}
    (hl : bss.flatten.Perm ((List.range g.nBlocks).map (blockAt g))) {order : List ℕ} (ho : order.Perm (List.range (bss.length * 128))) :
    (order.flatMap (itemsOf off bss)).Perm (flat (fun r => (List.range' (off r) (off (r + 1) - off r)).map fun n => (blockAt g r, n)) g.nBlocks) := by
  refine (List.Perm.flatMap_right _ ho).trans ?_
  show (flat (itemsOf off bss) (bss.length * 128)).Perm _
  rw [flat_flat]
  have h1 : ∀ i < bss.length, (flat (fun r => itemsOf off bss (i * 128 + r)) 128).Perm
      ((bss.getD i []).flatMap fun b => (List.range' (off b.bid) (off (b.bid + 1) - off b.bid)).map fun n => (b, n)) := by
    intro i _
    have : flat (fun r => itemsOf off bss (i * 128 + r)) 128 = (List.range 128).flatMap fun r => (bss.getD i []).flatMap fun b =>
        (inBlock 128 (off b.bid) (off (b.bid + 1)) r).map fun n => (b, n) := by
      refine List.flatMap_congr fun r hr => ?_
      have hr := List.mem_range.1 hr
      unfold itemsOf
      rw [show (i * 128 + r) / 128 = i by omega, show (i * 128 + r) % 128 = r by omega]
    rw [this]
    refine (flatMap_swap _ _ _).trans ?_
    refine List.Perm.flatMap_left _ fun b _ => ?_
    rw [← List.map_flatMap]
    exact (inBlock_perm (by omega) _ _).map _
  refine (List.Perm.flatMap_left _ fun i hi => h1 i (List.mem_range.1 hi)).trans ?_
  have h2 : ((List.range bss.length).flatMap fun i => (bss.getD i []).flatMap fun b =>
      (List.range' (off b.bid) (off (b.bid + 1) - off b.bid)).map fun n => (b, n)) =
      bss.flatten.flatMap fun b => (List.range' (off b.bid) (off (b.bid + 1) - off b.bid)).map fun n => (b, n) := by
    have h3 : (List.range bss.length).map (fun i => bss.getD i []) = bss := by
      refine List.ext_getElem (by simp) fun i h1 h2 => ?_
      rw [List.getElem_map, List.getElem_range, List.getD_eq_getElem?_getD, List.getElem?_eq_getElem h2]
      rfl
    conv_rhs => rw [← h3]
    rw [List.flatten_eq_flatMap, List.flatMap_assoc, List.flatMap_map]
    rfl
  rw [h2]
  refine (List.Perm.flatMap_right _ hl).trans ?_
  rw [List.flatMap_map]
  refine List.Perm.of_eq (List.flatMap_congr fun r _ => ?_)
  rw [blockAt_bid]

theorem blocks_flatten {F : Foil} {W : World} (hW : W.Ok F) :
    (F.blocks W.e).flatten.Perm ((List.range W.e.g.nBlocks).map (blockAt W.e.g)) := by
  unfold Foil.blocks
  split_ifs with h
  · exact simple2Yz_perm W.e.g (by simp [Ix.bMx, hW.yz.1 h])
  · exact simple2_perm W.e.g

theorem blocks_length (F : Foil) (e : Env ℝ) : (F.blocks e).length ≤ 1024 := by
  unfold Foil.blocks simple2Yz simple2 maxNBlocks
  split_ifs <;> simp

end Psc.CudaHeat
