import Verif.Spec.Ndarray
import Verif.Lemmas.Radix

/-!
# Lemmas for C96
-/

namespace Psc.Ndarray

open Radix

variable {α : Type} {n : ℕ}

/-! ## Addresses -/

theorem foldl_update {β : Type} {perm : Fin n → Fin n} (hp : Function.Injective perm) (f : Fin n → β) :
    ∀ (l : List (Fin n)) (s : Fin n → β) (d : Fin n),
      l.foldl (fun s d => Function.update s (perm d) (f d)) s (perm d) = if d ∈ l then f d else s (perm d)
  | [], s, d => by simp
  | a :: l, s, d => by
    rw [List.foldl_cons, foldl_update hp f l]
    by_cases h : d ∈ l
    · simp [h]
    · by_cases h' : d = a
      · subst h'; simp [h]
      · rw [Function.update_of_ne (fun e => h' (hp e))]; simp [h, h']

theorem ndStride_perm {dims : Fin n → ℤ} {perm : Fin n → Fin n} (hp : Function.Injective perm) (d : Fin n) :
    ndStride dims perm (perm d) = wt (fun e => dims (perm e)) d := by
  unfold ndStride
  rw [foldl_update hp (fun d => ∏ dd ∈ Finset.Iio d, dims (perm dd)), if_pos (List.mem_finRange d)]
  rfl

theorem addr_eq (nd : Nd n) (i : Fin n → ℤ) : nd.addr i = ∑ d, (i d - nd.start d) * nd.stride d := by
  unfold Nd.addr Nd.arrOff
  simp only [sub_mul, Finset.sum_sub_distrib]
  ring

/-- what holds of all arrays -/
structure WF (h : Heap α) (nd : Nd n) : Prop where
  dims : ∀ d, 0 < nd.dims d
  stride : ∀ d, 0 < nd.stride d
  blk : nd.blk < h.next
  len : nd.len = ∏ d, nd.dims d
  range : ∀ i, Inside nd i → 0 ≤ nd.addr i ∧ nd.addr i < (h.blk nd.blk).size
  inj : ∀ i j, Inside nd i → Inside nd j → nd.addr i = nd.addr j → i = j

theorem setup_spec {zero : α} {h h' : Heap α} {ty : Ty} {dims offs : Fin n → ℤ} {perm : Fin n → Fin n} {nd : Nd n}
    (e : setup zero h ty dims offs perm = some (h', nd)) :
    h'.next = h.next + 1 ∧ h'.blk = Function.update h.blk h.next ⟨∏ d, dims d, fun _ => zero⟩ ∧
      nd = ⟨dims, offs, offs, ndStride dims perm, ∏ d, dims d, ty, h.next⟩ := by
  unfold setup at e
  dsimp only at e
  split at e
  · simp only [Option.some.injEq, Prod.mk.injEq] at e
    obtain ⟨rfl, rfl⟩ := e
    exact ⟨rfl, rfl, rfl⟩
  · exact absurd e (by simp)

theorem setup_some {zero : α} {h : Heap α} {ty : Ty} {dims offs : Fin n → ℤ} {perm : Fin n → Fin n} (hn : n ≤ 5) (h0 : 0 ≤ ∏ d, dims d)
    (h1 : ∏ d, dims d < 2 ^ 31) : setup zero h ty dims offs perm =
      some (⟨h.next + 1, Function.update h.blk h.next ⟨∏ d, dims d, fun _ => zero⟩⟩,
        ⟨dims, offs, offs, ndStride dims perm, ∏ d, dims d, ty, h.next⟩) := by
  unfold setup
  exact if_pos ⟨hn, h0, h1⟩

theorem setup_addr {dims offs : Fin n → ℤ} {perm : Fin n → Fin n} (hp : Function.Injective perm) (len : ℤ) (ty : Ty) (b : ℕ)
    (i : Fin n → ℤ) : Nd.addr ⟨dims, offs, offs, ndStride dims perm, len, ty, b⟩ i =
      num (fun e => dims (perm e)) fun e => i (perm e) - offs (perm e) := by
  rw [addr_eq]
  unfold num
  rw [← Equiv.sum_comp (Equiv.ofBijective perm (Finite.injective_iff_bijective.1 hp)) fun d => (i d - offs d) * ndStride dims perm d]
  exact Finset.sum_congr rfl fun d _ => by
    rw [Equiv.ofBijective_apply, ndStride_perm hp]

theorem perm_prod {perm : Fin n → Fin n} (hp : Function.Injective perm) (m : Fin n → ℤ) : ∏ e, m (perm e) = ∏ e, m e :=
  Equiv.prod_comp (Equiv.ofBijective perm (Finite.injective_iff_bijective.1 hp)) m

theorem wf_setup {zero : α} {h h' : Heap α} {ty : Ty} {dims offs : Fin n → ℤ} {perm : Fin n → Fin n} {nd : Nd n}
    (hd : ∀ d, 0 < dims d) (hp : Function.Injective perm) (e : setup zero h ty dims offs perm = some (h', nd)) : WF h' nd := by
  obtain ⟨e1, e2, rfl⟩ := setup_spec e
  have hs : Function.Surjective perm := Finite.injective_iff_surjective.1 hp
  have hx : ∀ i : Fin n → ℤ, Inside ⟨dims, offs, offs, ndStride dims perm, ∏ d, dims d, ty, h.next⟩ i →
      ∀ d, 0 ≤ i (perm d) - offs (perm d) ∧ i (perm d) - offs (perm d) < dims (perm d) := fun i hi d => by
    have := hi (perm d); dsimp only at this; omega
  refine ⟨hd, fun d => ?_, by rw [e1]; exact Nat.lt_succ_self _, rfl, fun i hi => ?_, fun i j hi hj e => ?_⟩
  · obtain ⟨c, rfl⟩ := hs d
    dsimp only
    rw [ndStride_perm hp]
    exact wt_pos (fun e => hd _) c
  · rw [setup_addr hp, e2, Function.update_self]
    have := num_bound (hx i hi)
    rw [perm_prod hp] at this
    exact this
  · rw [setup_addr hp, setup_addr hp] at e
    have := num_inj (hx i hi) (hx j hj) e
    funext d
    obtain ⟨c, rfl⟩ := hs d
    have := congrFun this c
    omega

theorem setup_onto {zero : α} {h h' : Heap α} {ty : Ty} {dims offs : Fin n → ℤ} {perm : Fin n → Fin n} {nd : Nd n}
    (hd : ∀ d, 0 < dims d) (hp : Function.Injective perm) (e : setup zero h ty dims offs perm = some (h', nd)) {k : ℤ} (h0 : 0 ≤ k)
    (h1 : k < (h'.blk nd.blk).size) : ∃ i, Inside nd i ∧ nd.addr i = k := by
  obtain ⟨e1, e2, rfl⟩ := setup_spec e
  have hs : Function.Surjective perm := Finite.injective_iff_surjective.1 hp
  rw [e2, Function.update_self, ← perm_prod hp] at h1
  obtain ⟨x, hx, ex⟩ := num_surj (m := fun d => dims (perm d)) (fun d => hd _) h0 h1
  let q := Equiv.ofBijective perm (Finite.injective_iff_bijective.1 hp)
  refine ⟨fun d => x (q.symm d) + offs d, fun d => ?_, ?_⟩
  · have := hx (q.symm d)
    have e : perm (q.symm d) = d := q.apply_symm_apply d
    rw [e] at this
    dsimp only
    omega
  · rw [setup_addr hp, ← ex]
    congr 1
    funext d
    have e : q.symm (perm d) = d := q.symm_apply_apply d
    rw [e]
    omega

theorem view_spec {base v : Nd n} {dims offs viewOffs : Fin n → ℤ} (e : view base dims offs viewOffs = some v) :
    (∀ d, viewOffs d ≥ base.offs d ∧ viewOffs d + dims d ≤ base.offs d + base.dims d) ∧
      v = ⟨dims, offs, fun d => base.start d - viewOffs d + offs d, base.stride, ∏ d, dims d, base.ty, base.blk⟩ := by
  unfold view at e
  dsimp only at e
  split at e
  · rename_i h
    exact ⟨h.1, (Option.some.inj e).symm⟩
  · exact absurd e (by simp)

theorem view_some {base : Nd n} {dims offs viewOffs : Fin n → ℤ}
    (hv : ∀ d, viewOffs d ≥ base.offs d ∧ viewOffs d + dims d ≤ base.offs d + base.dims d) (h0 : 0 ≤ ∏ d, dims d)
    (h1 : ∏ d, dims d < 2 ^ 31) : view base dims offs viewOffs =
      some ⟨dims, offs, fun d => base.start d - viewOffs d + offs d, base.stride, ∏ d, dims d, base.ty, base.blk⟩ := by
  unfold view
  exact if_pos ⟨hv, h0, h1⟩

theorem view_addr {base v : Nd n} {dims offs viewOffs : Fin n → ℤ} (e : view base dims offs viewOffs = some v) (i : Fin n → ℤ) :
    v.addr i = base.addr fun d => i d - offs d + viewOffs d := by
  obtain ⟨_, rfl⟩ := view_spec e
  rw [addr_eq, addr_eq]
  exact Finset.sum_congr rfl fun d _ => by dsimp only; ring

theorem view_inside {base v : Nd n} {dims offs viewOffs : Fin n → ℤ} (e : view base dims offs viewOffs = some v) {i : Fin n → ℤ}
    (hi : Inside v i) : Inside base fun d => i d - offs d + viewOffs d := by
  obtain ⟨hv, rfl⟩ := view_spec e
  intro d
  have := hi d
  have := hv d
  dsimp only at *
  omega

theorem wf {zero : α} {h : Heap α} {nd : Nd n} (hb : Built zero h nd) : WF h nd := by
  induction hb with
  | setup hd hp e => exact wf_setup hd hp e
  | @view h base v dims offs viewOffs hb hd e ih =>
    have hv := view_spec e
    refine ⟨?_, ?_, ?_, ?_, fun i hi => ?_, fun i j hi hj e' => ?_⟩
    · rw [hv.2]; exact hd
    · rw [hv.2]; exact ih.stride
    · rw [hv.2]; exact ih.blk
    · rw [hv.2]
    · rw [view_addr e]
      have := ih.range _ (view_inside e hi)
      rw [show v.blk = base.blk by rw [hv.2]]
      exact this
    · rw [view_addr e, view_addr e] at e'
      have := ih.inj _ _ (view_inside e hi) (view_inside e hj) e'
      funext d
      have := congrFun this d
      omega
  | later hb hn hs ih =>
    refine ⟨ih.dims, ih.stride, lt_of_lt_of_le ih.blk hn, ih.len, fun i hi => ?_, ih.inj⟩
    rw [hs _ ih.blk]
    exact ih.range i hi

/-! ## Iterators -/

theorem size_pos (ty : Ty) : 0 < ty.size := by cases ty <;> decide

theorem toInt_of {x : ℤ} (h0 : 0 ≤ x) (h1 : x < 2 ^ 31) : toInt x = x := by unfold toInt; omega

theorem stride_int {h : Heap α} {nd : Nd n} (w : WF h nd) (s : Small nd) (d : Fin n) :
    toInt (nd.stride d * nd.ty.size) = nd.stride d * nd.ty.size := by
  have h1 := w.dims d
  have h2 : 0 < nd.stride d * nd.ty.size := mul_pos (w.stride d) (size_pos _)
  refine toInt_of h2.le (lt_of_le_of_lt ?_ (s d).2)
  exact le_mul_of_one_le_left h2.le (by omega)

/-- the iterator at index `i` -/
def at_ (nd : Nd n) (i : Fin n → ℤ) : It n :=
  ⟨some (nd.addr i * nd.ty.size), i, fun d => nd.stride d * nd.ty.size, fun d => nd.offs d + nd.dims d, nd.offs⟩

/-- the iterator at the end -/
def done (nd : Nd n) : It n := { at_ nd nd.offs with ptr := none }

theorem itPtr_eq {h : Heap α} {nd : Nd n} (w : WF h nd) (s : Small nd) (l : List (Fin n)) (p : ℤ) :
    itPtr nd nd.offs (fun d => nd.offs d + nd.dims d) l p = some (p + (l.map fun d => nd.offs d * (nd.stride d * nd.ty.size)).sum) := by
  induction l generalizing p with
  | nil => simp [itPtr]
  | cons d l ih =>
    have h2 : 0 < nd.stride d * nd.ty.size := mul_pos (w.stride d) (size_pos _)
    have hs := (s d).1
    have hb : |nd.offs d * (nd.stride d * nd.ty.size)| < 2 ^ 31 := by rw [abs_mul, abs_of_pos h2]; exact hs
    have hb' := abs_lt.1 hb
    rw [itPtr, if_pos ⟨le_refl _, le_refl _⟩, stride_int w s, mulInt, if_pos ⟨hb'.1.le, hb'.2⟩, Option.bind_some, ih, List.map_cons,
      List.sum_cons, add_assoc]

theorem itAll_eq {h : Heap α} {nd : Nd n} (w : WF h nd) (s : Small nd) : itAll nd = some (at_ nd nd.offs) := by
  unfold itAll itBegEnd
  rw [itPtr_eq w s]
  have e1 : (fun d => toInt (nd.stride d * nd.ty.size)) = fun d => nd.stride d * nd.ty.size := funext fun d => stride_int w s d
  rw [e1, Option.map_some]
  unfold at_
  have : nd.arrOff * nd.ty.size + (List.map (fun d => nd.offs d * (nd.stride d * nd.ty.size)) (List.finRange n)).sum =
      nd.addr nd.offs * nd.ty.size := by
    rw [← List.ofFn_eq_map, List.sum_ofFn]
    unfold Nd.addr
    rw [add_mul, Finset.sum_mul]
    congr 1
    exact Finset.sum_congr rfl fun d _ => by ring
  rw [this]

theorem rank_num (nd : Nd n) (i : Fin n → ℤ) : rank nd i = num nd.dims fun d => i d - nd.offs d := rfl

theorem rank_bound {nd : Nd n} {i : Fin n → ℤ} (hi : Inside nd i) : 0 ≤ rank nd i ∧ rank nd i < ∏ d, nd.dims d := by
  rw [rank_num]
  exact num_bound fun d => by have := hi d; omega

theorem rank_inj {nd : Nd n} {i j : Fin n → ℤ} (hi : Inside nd i) (hj : Inside nd j) (e : rank nd i = rank nd j) : i = j := by
  have := num_inj (m := nd.dims) (x := fun d => i d - nd.offs d) (y := fun d => j d - nd.offs d) (fun d => by have := hi d; omega)
    (fun d => by have := hj d; omega) e
  funext d
  have := congrFun this d
  omega

theorem rank_offs (nd : Nd n) : rank nd nd.offs = 0 := by simp [rank]

theorem inside_offs {h : Heap α} {nd : Nd n} (w : WF h nd) : Inside nd nd.offs := fun d => ⟨le_refl _, by have := w.dims d; omega⟩

theorem rank_update (nd : Nd n) (i : Fin n → ℤ) (d : Fin n) (v : ℤ) :
    rank nd (Function.update i d v) = rank nd i + (v - i d) * wt nd.dims d := by
  have a : ∀ i : Fin n → ℤ, rank nd i = ∑ e, i e * wt nd.dims e - ∑ e, nd.offs e * wt nd.dims e := fun i => by
    rw [← Finset.sum_sub_distrib]
    exact Finset.sum_congr rfl fun e _ => by unfold wt; ring
  rw [a, a, sum_update]
  ring

theorem addr_update (nd : Nd n) (i : Fin n → ℤ) (d : Fin n) (v : ℤ) :
    nd.addr (Function.update i d v) = nd.addr i + (v - i d) * nd.stride d := by
  unfold Nd.addr
  rw [sum_update]
  ring

/-- product of the first `k` extents -/
def wtN (nd : Nd n) (k : ℕ) : ℤ := ∏ e ∈ Finset.univ.filter (fun e : Fin n => e.val < k), nd.dims e

theorem wtN_val (nd : Nd n) (d : Fin n) : wtN nd d.val = wt nd.dims d := by
  unfold wtN wt
  congr 1
  ext e
  simp only [Finset.mem_filter, Finset.mem_univ, true_and, Finset.mem_Iio, Fin.lt_def]

theorem wtN_succ (nd : Nd n) (d : Fin n) : wtN nd (d.val + 1) = nd.dims d * wt nd.dims d := by
  unfold wtN wt
  have : Finset.univ.filter (fun e : Fin n => e.val < d.val + 1) = insert d (Finset.Iio d) := by
    ext e
    simp only [Finset.mem_filter, Finset.mem_univ, true_and, Finset.mem_insert, Finset.mem_Iio, Fin.lt_def, Fin.ext_iff]
    omega
  rw [this, Finset.prod_insert (by simp)]

theorem next_wrap (d : Fin n) (ds : List (Fin n)) (it : It n) (p : ℤ) (c : it.idx d + 1 ≥ it.stop d) :
    nextFrom (d :: ds) it p = (mulInt (it.stop d - it.beg d) (it.stride d)).bind fun w =>
      nextFrom ds ⟨it.ptr, Function.update it.idx d (it.beg d), it.stride, it.stop, it.beg⟩ (p + it.stride d - w) := by
  rw [nextFrom]
  exact if_pos c

theorem next_stop (d : Fin n) (ds : List (Fin n)) (it : It n) (p : ℤ) (c : ¬ it.idx d + 1 ≥ it.stop d) :
    nextFrom (d :: ds) it p = some ⟨some (p + it.stride d), Function.update it.idx d (it.idx d + 1), it.stride, it.stop, it.beg⟩ := by
  rw [nextFrom]
  exact if_neg c

theorem next_aux {h : Heap α} {nd : Nd n} (w : WF h nd) (s : Small nd) {i0 : Fin n → ℤ} (l : List (Fin n)) :
    ∀ (k : ℕ) (_ : l = (List.finRange n).drop k) (i : Fin n → ℤ) (_ : Inside nd i) (_ : ∀ d : Fin n, d.val < k → i d = nd.offs d)
    (_ : rank nd i0 + 1 = rank nd i + wtN nd k) (q : Option ℤ),
    (rank nd i0 + 1 = ∏ d, nd.dims d ∧ nextFrom l { at_ nd i with ptr := q } (nd.addr i * nd.ty.size) = some (done nd)) ∨
      ∃ j, Inside nd j ∧ rank nd j = rank nd i0 + 1 ∧
        nextFrom l { at_ nd i with ptr := q } (nd.addr i * nd.ty.size) = some (at_ nd j) := by
  induction l with
  | nil =>
    intro k hl i hi hlow hr q
    have hk : n ≤ k := by
      have := congrArg List.length hl
      rw [List.length_drop, List.length_finRange, List.length_nil] at this
      omega
    have e : i = nd.offs := funext fun d => hlow d (lt_of_lt_of_le d.isLt hk)
    left
    subst e
    refine ⟨?_, rfl⟩
    rw [hr, rank_offs, zero_add]
    unfold wtN
    congr 1
    ext d
    simp only [Finset.mem_filter, Finset.mem_univ, true_and, iff_true]
    exact lt_of_lt_of_le d.isLt hk
  | cons d ds ih =>
    intro k hl i hi hlow hr q
    have hk : k < n := by
      have := congrArg List.length hl
      rw [List.length_drop, List.length_finRange, List.length_cons] at this
      omega
    rw [List.drop_eq_getElem_cons (by rw [List.length_finRange]; exact hk)] at hl
    obtain ⟨hd, hds⟩ := List.cons.inj hl
    rw [List.getElem_finRange] at hd
    have hdk : d.val = k := by rw [hd]; rfl
    have hid := hi d
    have hst := w.stride d
    rw [← hdk, wtN_val] at hr
    by_cases c : i d + 1 ≥ nd.offs d + nd.dims d
    · rw [next_wrap d ds { at_ nd i with ptr := q } (nd.addr i * nd.ty.size) c]
      dsimp only [at_]
      have hp : 0 ≤ nd.dims d * (nd.stride d * nd.ty.size) := mul_nonneg (w.dims d).le (mul_nonneg hst.le (size_pos _).le)
      have e1 : nd.offs d + nd.dims d - nd.offs d = nd.dims d := by omega
      have hm : mulInt (nd.offs d + nd.dims d - nd.offs d) (nd.stride d * nd.ty.size) = some (nd.dims d * (nd.stride d * nd.ty.size)) := by
        rw [e1, mulInt, if_pos ⟨le_trans (by norm_num) hp, (s d).2⟩]
      rw [hm, Option.bind_some]
      have e2 : nd.addr i * nd.ty.size + nd.stride d * nd.ty.size - nd.dims d * (nd.stride d * nd.ty.size) =
          nd.addr (Function.update i d (nd.offs d)) * nd.ty.size := by
        rw [addr_update, show i d = nd.offs d + nd.dims d - 1 by omega]
        ring
      rw [e2]
      refine ih (k + 1) hds (Function.update i d (nd.offs d)) (fun e => ?_) (fun e he => ?_) ?_ q
      · by_cases h : e = d
        · subst h; rw [Function.update_self]; have := w.dims e; omega
        · rw [Function.update_of_ne h]; exact hi e
      · by_cases h : e = d
        · subst h; rw [Function.update_self]
        · rw [Function.update_of_ne h]
          exact hlow e (by have : e.val ≠ d.val := fun h' => h (Fin.ext h'); omega)
      · rw [rank_update, ← hdk, wtN_succ, hr, show i d = nd.offs d + nd.dims d - 1 by omega]
        ring
    · rw [next_stop d ds { at_ nd i with ptr := q } (nd.addr i * nd.ty.size) c]
      dsimp only [at_]
      right
      refine ⟨Function.update i d (i d + 1), fun e => ?_, ?_, ?_⟩
      · by_cases h : e = d
        · subst h; rw [Function.update_self]; omega
        · rw [Function.update_of_ne h]; exact hi e
      · rw [rank_update, hr]; ring
      · rw [addr_update]
        congr 3
        ring

theorem itNext_at {h : Heap α} {nd : Nd n} (w : WF h nd) (s : Small nd) {i : Fin n → ℤ} (hi : Inside nd i) :
    (rank nd i + 1 = ∏ d, nd.dims d ∧ itNext (at_ nd i) = some (done nd)) ∨
      ∃ j, Inside nd j ∧ rank nd j = rank nd i + 1 ∧ itNext (at_ nd i) = some (at_ nd j) :=
  next_aux w s (List.finRange n) 0 rfl i hi (fun d hd => absurd hd (by omega)) (by simp [wtN]) (some (nd.addr i * nd.ty.size))

/-- a loop over all elements: an invariant that holds at rank 0 and is kept by the body holds at the end -/
theorem loop_inv {h : Heap α} {nd : Nd n} (w : WF h nd) (s : Small nd) {σ : Type} {body : ℤ → σ → Option σ} (Inv : ℤ → σ → Prop)
    (hb : ∀ i st, Inside nd i → Inv (rank nd i) st → ∃ st', body (nd.addr i * nd.ty.size) st = some st' ∧ Inv (rank nd i + 1) st') :
    ∀ (fuel : ℕ) (i : Fin n → ℤ) (st : σ), Inside nd i → Inv (rank nd i) st → ∏ d, nd.dims d < rank nd i + fuel →
      ∃ st', loop body fuel (at_ nd i) st = some st' ∧ Inv (∏ d, nd.dims d) st'
  | 0, i, st, hi, _, hf => by have := (rank_bound hi).2; simp at hf; omega
  | fuel + 1, i, st, hi, h0, hf => by
    obtain ⟨st', e1, h1⟩ := hb i st hi h0
    rw [loop]
    dsimp only [at_]
    rw [e1, Option.bind_some]
    rcases itNext_at w s hi with ⟨hr, e2⟩ | ⟨j, hj, hr, e2⟩
    · unfold at_ at e2
      rw [e2, Option.bind_some]
      rw [hr] at h1
      have hf' : 0 < fuel := by push_cast at hf; omega
      obtain ⟨f, rfl⟩ : ∃ f, fuel = f + 1 := ⟨fuel - 1, by omega⟩
      exact ⟨st', rfl, h1⟩
    · unfold at_ at e2
      rw [e2, Option.bind_some]
      exact loop_inv w s Inv hb fuel j st' hj (hr ▸ h1) (by rw [hr]; push_cast at hf; omega)

theorem loop_all {h : Heap α} {nd : Nd n} (w : WF h nd) (s : Small nd) {σ : Type} {body : ℤ → σ → Option σ} (Inv : ℤ → σ → Prop)
    (hb : ∀ i st, Inside nd i → Inv (rank nd i) st → ∃ st', body (nd.addr i * nd.ty.size) st = some st' ∧ Inv (rank nd i + 1) st')
    {fuel : ℕ} (hf : count nd < fuel) {st : σ} (h0 : Inv 0 st) :
    ∃ st', loop body fuel (at_ nd nd.offs) st = some st' ∧ Inv (∏ d, nd.dims d) st' := by
  refine loop_inv w s Inv hb fuel nd.offs st (inside_offs w) (by rw [rank_offs]; exact h0) ?_
  rw [rank_offs, zero_add]
  unfold count at hf
  omega

/-! ## Memory -/

theorem elem_addr (ty : Ty) (k : ℤ) : elem ty (k * ty.size) = some k := by
  unfold elem
  rw [if_pos (Int.mul_emod_left _ _), Int.mul_ediv_cancel _ (size_pos ty).ne']

theorem rd_at {h : Heap α} {nd : Nd n} {i : Fin n → ℤ} (hr : 0 ≤ nd.addr i ∧ nd.addr i < (h.blk nd.blk).size) :
    rd nd h (nd.addr i * nd.ty.size) = some ((h.blk nd.blk).val (nd.addr i)) := by
  unfold rd Heap.read
  rw [elem_addr, Option.bind_some, if_pos hr]

theorem wr_at {h : Heap α} {nd : Nd n} {i : Fin n → ℤ} (hr : 0 ≤ nd.addr i ∧ nd.addr i < (h.blk nd.blk).size) (v : α) :
    ∃ h', wr nd h (nd.addr i * nd.ty.size) v = some h' ∧ h'.next = h.next ∧ (∀ b, (h'.blk b).size = (h.blk b).size) ∧
      ∀ b k, (h'.blk b).val k = if b = nd.blk ∧ k = nd.addr i then v else (h.blk b).val k := by
  unfold wr Heap.write
  rw [elem_addr, Option.bind_some, if_pos hr]
  refine ⟨_, rfl, rfl, fun b => ?_, fun b k => ?_⟩
  · by_cases c : b = nd.blk
    · subst c; simp
    · dsimp only; rw [Function.update_of_ne c]
  · by_cases c : b = nd.blk
    · subst c
      dsimp only
      rw [Function.update_self]
      by_cases c' : k = nd.addr i
      · subst c'; simp
      · dsimp only; rw [Function.update_of_ne c']; simp [c']
    · dsimp only; rw [Function.update_of_ne c]; simp [c]

/-- the memory after the elements of ranks below `r` got the values `f` -/
structure Upto (nd : Nd n) (f : (Fin n → ℤ) → α) (h0 : Heap α) (r : ℤ) (h : Heap α) : Prop where
  next : h.next = h0.next
  size : ∀ b, (h.blk b).size = (h0.blk b).size
  done : ∀ i, Inside nd i → rank nd i < r → (h.blk nd.blk).val (nd.addr i) = f i
  rest : ∀ b k, (¬ ∃ i, Inside nd i ∧ rank nd i < r ∧ b = nd.blk ∧ k = nd.addr i) → (h.blk b).val k = (h0.blk b).val k

theorem upto_zero (nd : Nd n) (f : (Fin n → ℤ) → α) (h : Heap α) : Upto nd f h 0 h :=
  ⟨rfl, fun _ => rfl, fun i hi hr => absurd (rank_bound hi).1 (by omega), fun _ _ _ => rfl⟩

theorem upto_step {nd : Nd n} {f : (Fin n → ℤ) → α} {h0 h : Heap α} (w : WF h0 nd) {i : Fin n → ℤ} (hi : Inside nd i)
    (u : Upto nd f h0 (rank nd i) h) : ∃ h', wr nd h (nd.addr i * nd.ty.size) (f i) = some h' ∧ Upto nd f h0 (rank nd i + 1) h' := by
  obtain ⟨h', e, e1, e2, e3⟩ := wr_at (h := h) (nd := nd) (i := i) (by rw [u.size]; exact w.range i hi) (f i)
  refine ⟨h', e, e1.trans u.next, fun b => (e2 b).trans (u.size b), fun j hj hr => ?_, fun b k hn => ?_⟩
  · rw [e3]
    by_cases c : nd.addr j = nd.addr i
    · rw [if_pos ⟨rfl, c⟩, w.inj j i hj hi c]
    · rw [if_neg fun c' => c c'.2]
      refine u.done j hj ?_
      have : rank nd j ≠ rank nd i := fun e => c (by rw [rank_inj hj hi e])
      omega
  · rw [e3, if_neg fun c => hn ⟨i, hi, by omega, c⟩]
    exact u.rest b k fun ⟨j, hj, hr, c⟩ => hn ⟨j, hj, by omega, c⟩

theorem upto_self {nd : Nd n} {f : (Fin n → ℤ) → α} {h0 h : Heap α} (w : WF h0 nd) {i : Fin n → ℤ} (hi : Inside nd i)
    (u : Upto nd f h0 (rank nd i) h) : (h.blk nd.blk).val (nd.addr i) = (h0.blk nd.blk).val (nd.addr i) :=
  u.rest _ _ fun ⟨j, hj, hr, _, e⟩ => by rw [w.inj i j hi hj e] at hr; omega

theorem upto_all {nd : Nd n} {f : (Fin n → ℤ) → α} {h0 h : Heap α} (u : Upto nd f h0 (∏ d, nd.dims d) h) :
    OnlyIn nd h0 h ∧ ∀ i, Inside nd i → (h.blk nd.blk).val (nd.addr i) = f i :=
  ⟨⟨u.next, u.size, fun b k hn => u.rest b k fun ⟨i, hi, _, c⟩ => hn ⟨i, hi, c⟩⟩, fun i hi => u.done i hi (rank_bound hi).2⟩

theorem get_eq {h h0 : Heap α} {nd : Nd n} (w : WF h0 nd) (hs : ∀ b, (h.blk b).size = (h0.blk b).size) {i : Fin n → ℤ} (hi : Inside nd i) :
    nd.get h i = some ((h.blk nd.blk).val (nd.addr i)) := by
  unfold Nd.get Heap.read
  rw [hs, if_pos (w.range i hi)]

/-! ## Operations -/

theorem set_spec {h : Heap α} {nd : Nd n} (w : WF h nd) (s : Small nd) {fuel : ℕ} (hf : count nd < fuel) (v : α) :
    ∃ h', set fuel h nd v = some h' ∧ OnlyIn nd h h' ∧ ∀ i, Inside nd i → nd.get h' i = some v := by
  unfold set
  rw [itAll_eq w s, Option.bind_some]
  obtain ⟨h', e, u⟩ := loop_all (body := fun p h => wr nd h p v) w s (Upto nd (fun _ => v) h) (fun i st hi u => upto_step w hi u) hf
    (upto_zero nd _ h)
  obtain ⟨o, d⟩ := upto_all u
  exact ⟨h', e, o, fun i hi => by rw [get_eq w o.2.1 hi, d i hi]⟩

theorem scale_spec [Mul α] {h : Heap α} {nd : Nd n} (w : WF h nd) (s : Small nd) {fuel : ℕ} (hf : count nd < fuel) (v : α) :
    ∃ h', scale fuel h nd v = some h' ∧ OnlyIn nd h h' ∧ ∀ i, Inside nd i → nd.get h' i = (nd.get h i).map (· * v) := by
  unfold scale
  rw [itAll_eq w s, Option.bind_some]
  obtain ⟨h', e, u⟩ := loop_all (body := fun p h => (rd nd h p).bind fun x => wr nd h p (x * v)) w s
    (Upto nd (fun i => (h.blk nd.blk).val (nd.addr i) * v) h) (fun i st hi u => by
      beta_reduce
      rw [rd_at (by rw [u.size]; exact w.range i hi), Option.bind_some, upto_self w hi u]
      exact upto_step w hi u) hf (upto_zero nd _ h)
  obtain ⟨o, d⟩ := upto_all u
  exact ⟨h', e, o, fun i hi => by rw [get_eq w o.2.1 hi, d i hi, get_eq w (fun _ => rfl) hi, Option.map_some]⟩

theorem norm_spec [Ring α] [LinearOrder α] {h : Heap α} {nd : Nd n} (w : WF h nd) (s : Small nd) {fuel : ℕ}
    (hf : count nd < fuel) : ∃ x, norm fuel h nd = some x ∧ 0 ≤ x ∧ (∀ i, Inside nd i → ∀ y, nd.get h i = some y → |y| ≤ x) ∧
      (x = 0 ∨ ∃ i y, Inside nd i ∧ nd.get h i = some y ∧ x = |y|) := by
  unfold norm
  rw [itAll_eq w s, Option.bind_some]
  obtain ⟨x, e, u⟩ := loop_all (body := fun p (s : α) => (rd nd h p).map fun x => max s |x|) w s
    (fun r x => 0 ≤ x ∧ (∀ i, Inside nd i → rank nd i < r → |(h.blk nd.blk).val (nd.addr i)| ≤ x) ∧
      (x = 0 ∨ ∃ i y, Inside nd i ∧ nd.get h i = some y ∧ x = |y|)) (fun i st hi u => by
      beta_reduce
      rw [rd_at (w.range i hi), Option.map_some]
      refine ⟨_, rfl, le_trans u.1 (le_max_left _ _), fun j hj hr => ?_, ?_⟩
      · rcases lt_or_eq_of_le (show rank nd j ≤ rank nd i by omega) with c | c
        · exact le_trans (u.2.1 j hj c) (le_max_left _ _)
        · rw [rank_inj hj hi c]; exact le_max_right _ _
      · rcases max_choice st |(h.blk nd.blk).val (nd.addr i)| with c | c
        · rw [c]; exact u.2.2
        · rw [c]; exact Or.inr ⟨i, _, hi, get_eq w (fun _ => rfl) hi, rfl⟩) hf
    (⟨le_refl _, fun i hi hr => absurd (rank_bound hi).1 (by omega), Or.inl rfl⟩)
  refine ⟨x, e, u.1, fun i hi y ey => ?_, u.2.2⟩
  rw [get_eq w (fun _ => rfl) hi] at ey
  rw [← Option.some.inj ey]
  exact u.2.1 i hi (rank_bound hi).2

theorem corr_inside {dst src : Nd n} (hs : ∀ d, dst.dims d = src.dims d) {i : Fin n → ℤ} (hi : Inside dst i) :
    Inside src (corr dst src i) := fun d => by
  have := hi d
  have := hs d
  unfold corr
  omega

theorem corr_rank {dst src : Nd n} (hs : ∀ d, dst.dims d = src.dims d) (i : Fin n → ℤ) : rank src (corr dst src i) = rank dst i := by
  unfold rank corr
  have e : dst.dims = src.dims := funext hs
  rw [e]
  exact Finset.sum_congr rfl fun d _ => by ring

theorem copy_loop {h : Heap α} {dst src : Nd n} (wd : WF h dst) (ws : WF h src) (sd : Small dst) (ss : Small src)
    (hs : ∀ d, dst.dims d = src.dims d) (ht : dst.ty = src.ty) (hb : dst.blk ≠ src.blk) (hc : ¬ (fContiguous dst && fContiguous src) = true)
    {fuel : ℕ} (hf : count dst < fuel) :
    ∃ h', copy fuel h dst src = some h' ∧ OnlyIn dst h h' ∧ ∀ i, Inside dst i → dst.get h' i = src.get h (corr dst src i) := by
  unfold copy
  rw [if_pos ⟨ht, by unfold sameShape; exact decide_eq_true hs⟩, if_neg hc, itAll_eq wd sd, Option.bind_some, itAll_eq ws ss, Option.bind_some]
  obtain ⟨st, e, u⟩ := loop_all (body := fun p (s : Heap α × It n) => s.2.ptr.bind fun q => (rd src s.1 q).bind fun x => (wr dst s.1 p x).bind fun h' =>
        (itNext s.2).map fun it'' => (h', it'')) wd sd
    (fun r s => Upto dst (fun i => (h.blk src.blk).val (src.addr (corr dst src i))) h r s.1 ∧
      (r < ∏ d, dst.dims d → ∃ j, Inside src j ∧ rank src j = r ∧ s.2 = at_ src j)) (fun i st hi u => by
      obtain ⟨h1, it⟩ := st
      obtain ⟨u, hj0⟩ := u
      obtain ⟨j, hj, hr, ej⟩ := hj0 (rank_bound hi).2
      dsimp only at u ej
      subst ej
      have hij : j = corr dst src i := rank_inj hj (corr_inside hs hi) (by rw [hr, corr_rank hs])
      subst hij
      have hrd : rd src h1 (src.addr (corr dst src i) * src.ty.size) = some ((h.blk src.blk).val (src.addr (corr dst src i))) := by
        rw [rd_at (by rw [u.size]; exact ws.range _ hj), u.rest _ _ fun ⟨_, _, _, c, _⟩ => hb c.symm]
      obtain ⟨h2, e2, u2⟩ := upto_step wd hi u
      have hnx : ∃ it', itNext (at_ src (corr dst src i)) = some it' ∧ (rank dst i + 1 < ∏ d, dst.dims d →
          ∃ j, Inside src j ∧ rank src j = rank dst i + 1 ∧ it' = at_ src j) := by
        rcases itNext_at ws ss hj with ⟨c, e⟩ | ⟨j', hj', c, e⟩
        · refine ⟨_, e, fun c' => ?_⟩
          rw [hr, ← (show dst.dims = src.dims from funext hs)] at c
          omega
        · exact ⟨_, e, fun _ => ⟨j', hj', by rw [c, hr], rfl⟩⟩
      obtain ⟨it', e3, hit⟩ := hnx
      refine ⟨(h2, it'), ?_, u2, hit⟩
      have e3' := e3
      dsimp only [at_] at e3 ⊢
      rw [Option.bind_some, hrd, Option.bind_some, e2, Option.bind_some, e3, Option.map_some]) hf (st := (h, at_ src src.offs))
    ⟨upto_zero dst _ h, fun _ => ⟨src.offs, inside_offs ws, rank_offs src, rfl⟩⟩
  rw [e, Option.map_some]
  obtain ⟨o, d⟩ := upto_all u.1
  exact ⟨st.1, rfl, o, fun i hi => by rw [get_eq wd o.2.1 hi, d i hi, get_eq ws (fun _ => rfl) (corr_inside hs hi)]⟩

theorem contiguous_addr {nd : Nd n} (hc : fContiguous nd = true) {i : Fin n → ℤ} (hi : Inside nd i) :
    nd.addr i = nd.addr nd.offs + rank nd i := by
  have hc := of_decide_eq_true hc
  rw [addr_eq, addr_eq, rank, ← Finset.sum_add_distrib]
  refine Finset.sum_congr rfl fun d _ => ?_
  have hd := hi d
  by_cases c : nd.dims d = 1
  · have : i d = nd.offs d := by omega
    rw [this]
    ring
  · have : nd.stride d = ∏ e ∈ Finset.Iio d, nd.dims e := by
      by_contra c'
      exact hc d ⟨c, c'⟩
    rw [this]
    ring

theorem contiguous_of {h : Heap α} {nd : Nd n} (w : WF h nd) (ha : ∀ i, Inside nd i → nd.addr i = nd.addr nd.offs + rank nd i) :
    fContiguous nd = true := by
  refine decide_eq_true fun d ⟨c, c'⟩ => c' ?_
  have hd := w.dims d
  have := ha (Function.update nd.offs d (nd.offs d + 1)) fun e => by
    by_cases h : e = d
    · subst h; rw [Function.update_self]; omega
    · rw [Function.update_of_ne h]; have := w.dims e; omega
  rw [addr_update, rank_update, rank_offs] at this
  have e : wt nd.dims d = ∏ e ∈ Finset.Iio d, nd.dims e := rfl
  rw [← e]
  linarith

theorem rank_surj {nd : Nd n} (hd : ∀ d, 0 < nd.dims d) {k : ℤ} (h0 : 0 ≤ k) (h1 : k < ∏ d, nd.dims d) : ∃ i, Inside nd i ∧ rank nd i = k := by
  obtain ⟨x, hx, e⟩ := num_surj hd h0 h1
  refine ⟨fun d => x d + nd.offs d, fun d => by have := hx d; dsimp only; omega, ?_⟩
  rw [rank_num, ← e]
  congr 1
  funext d
  omega

theorem copy_vec {h : Heap α} {dst src : Nd n} (wd : WF h dst) (ws : WF h src)
    (hs : ∀ d, dst.dims d = src.dims d) (ht : dst.ty = src.ty) (hb : dst.blk ≠ src.blk) (hcd : fContiguous dst = true)
    (hcs : fContiguous src = true) (zd : dst.addr dst.offs = 0) (zs : src.addr src.offs = 0) (fuel : ℕ) :
    ∃ h', copy fuel h dst src = some h' ∧ OnlyIn dst h h' ∧ ∀ i, Inside dst i → dst.get h' i = src.get h (corr dst src i) := by
  have hN : 0 < ∏ d, dst.dims d := Finset.prod_pos fun d _ => wd.dims d
  have hss : dst.dims = src.dims := funext hs
  have fit : ∀ nd : Nd n, WF h nd → fContiguous nd = true → nd.addr nd.offs = 0 → nd.len ≤ (h.blk nd.blk).size := fun nd w c z => by
    have hN : 0 < ∏ d, nd.dims d := Finset.prod_pos fun d _ => w.dims d
    obtain ⟨i, hi, e⟩ := rank_surj (k := ∏ d, nd.dims d - 1) w.dims (by omega) (by omega)
    have := (w.range i hi).2
    rw [contiguous_addr c hi, z, e] at this
    rw [w.len]
    omega
  have hlen : dst.len = src.len := by rw [wd.len, ws.len, hss]
  have hcond : dst.len = src.len ∧ dst.ty = src.ty ∧ dst.len ≤ (h.blk dst.blk).size ∧ src.len ≤ (h.blk src.blk).size ∧ dst.blk ≠ src.blk :=
    ⟨hlen, ht, fit dst wd hcd zd, fit src ws hcs zs, hb⟩
  unfold copy vecCopy
  rw [if_pos ⟨ht, by unfold sameShape; exact decide_eq_true hs⟩, hcd, hcs, if_pos (show (true && true) = true from rfl), if_pos hcond]
  have hsz : ∀ b, ((Function.update h.blk dst.blk (⟨(h.blk dst.blk).size, fun k => if 0 ≤ k ∧ k < dst.len then (h.blk src.blk).val k
      else (h.blk dst.blk).val k⟩ : Block α)) b).size = (h.blk b).size := fun b => by
    by_cases c : b = dst.blk
    · subst c; rw [Function.update_self]
    · rw [Function.update_of_ne c]
  refine ⟨_, rfl, ⟨rfl, hsz, fun b k hn => ?_⟩, fun i hi => ?_⟩
  · by_cases c : b = dst.blk
    · subst c
      dsimp only
      rw [Function.update_self]
      refine if_neg fun hk => hn ?_
      rw [wd.len] at hk
      obtain ⟨i, hi, e⟩ := rank_surj wd.dims hk.1 hk.2
      exact ⟨i, hi, rfl, by rw [contiguous_addr hcd hi, zd, e, zero_add]⟩
    · dsimp only; rw [Function.update_of_ne c]
  · have hi' := corr_inside hs hi
    rw [get_eq wd hsz hi, get_eq ws (fun _ => rfl) hi']
    dsimp only
    have hr := rank_bound hi
    rw [Function.update_self, contiguous_addr hcd hi, contiguous_addr hcs hi', zd, zs, zero_add, zero_add, corr_rank hs]
    dsimp only
    rw [if_pos ⟨hr.1, by rw [wd.len]; exact hr.2⟩]

theorem copy_fuel {h : Heap α} {dst src : Nd n} (hc : (fContiguous dst && fContiguous src) = true) (fuel : ℕ) :
    copy fuel h dst src = copy 0 h dst src := by
  unfold copy
  rw [if_pos hc, if_pos hc]

theorem fills_offs {h : Heap α} {nd : Nd n} (w : WF h nd) (f : Fills h nd) : nd.addr nd.offs = 0 := by
  have hN : 0 < ∏ d, nd.dims d := Finset.prod_pos fun d _ => w.dims d
  obtain ⟨i, hi, e⟩ := f.2 0 (le_refl _) (by rw [w.len]; exact hN)
  have h0 := (w.range _ (inside_offs w)).1
  have : nd.addr nd.offs ≤ nd.addr i := by
    rw [addr_eq, addr_eq]
    exact Finset.sum_le_sum fun d _ => mul_le_mul_of_nonneg_right (by have := hi d; omega) (w.stride d).le
  omega

theorem axpy_spec [Add α] [Mul α] {h : Heap α} {x y : Nd n} (wx : WF h x) (wy : WF h y) (fx : Fills h x) (fy : Fills h y)
    (hs : x.dims = y.dims) (ht : y.ty = x.ty) (hst : x.stride = y.stride) (a : α) :
    ∃ h', axpy h y a x = some h' ∧ OnlyIn y h h' ∧ ∀ i, Inside y i → ∃ u v, y.get h i = some u ∧ x.get h (corr y x i) = some v ∧
      y.get h' i = some (u + a * v) := by
  have hlen : y.len = x.len := by rw [wy.len, wx.len, hs]
  have hcond : sameShape x y = true ∧ y.len = x.len ∧ y.ty = x.ty ∧ y.len ≤ (h.blk y.blk).size ∧ x.len ≤ (h.blk x.blk).size :=
    ⟨decide_eq_true fun d => congrFun hs d, hlen, ht, fy.1.ge, fx.1.ge⟩
  unfold axpy
  rw [if_pos hcond]
  have hsz : ∀ b, ((Function.update h.blk y.blk (⟨(h.blk y.blk).size, fun k => if 0 ≤ k ∧ k < y.len then (h.blk y.blk).val k +
      a * (h.blk x.blk).val k else (h.blk y.blk).val k⟩ : Block α)) b).size = (h.blk b).size := fun b => by
    by_cases c : b = y.blk
    · subst c; rw [Function.update_self]
    · rw [Function.update_of_ne c]
  refine ⟨_, rfl, ⟨rfl, hsz, fun b k hn => ?_⟩, fun i hi => ?_⟩
  · by_cases c : b = y.blk
    · subst c
      dsimp only
      rw [Function.update_self]
      refine if_neg fun hk => hn ?_
      obtain ⟨i, hi, e⟩ := fy.2 k hk.1 hk.2
      exact ⟨i, hi, rfl, e.symm⟩
    · dsimp only; rw [Function.update_of_ne c]
  · have hi' := corr_inside (fun d => (congrFun hs d).symm) hi
    refine ⟨_, _, get_eq wy (fun _ => rfl) hi, get_eq wx (fun _ => rfl) hi', ?_⟩
    rw [get_eq wy hsz hi]
    have hr := wy.range i hi
    have e : x.addr (corr y x i) = y.addr i := by
      have z1 := fills_offs wx fx
      have z2 := fills_offs wy fy
      have l : ∀ (nd : Nd n) (i : Fin n → ℤ), nd.addr i = nd.addr nd.offs + ∑ d, (i d - nd.offs d) * nd.stride d := fun nd i => by
        rw [addr_eq, addr_eq, ← Finset.sum_add_distrib]
        exact Finset.sum_congr rfl fun d _ => by ring
      rw [l x, l y i, z1, z2, hst]
      congr 1
      exact Finset.sum_congr rfl fun d _ => by unfold corr; ring
    dsimp only
    rw [Function.update_self]
    dsimp only
    rw [if_pos ⟨hr.1, by rw [← fy.1]; exact hr.2⟩, e]

end Psc.Ndarray
