import Verif.Lemmas.Ndarray

/-!
# C96: the arrays of libmrc, their views and the operations on whole arrays
-/

namespace Psc.Props

open Ndarray

variable {α : Type} {n : ℕ}

/-- **C96.** Of any array, view, or view of a view, different indices are different places in memory, all of them in the memory
that was allocated. -/
theorem C96_address (zero : α) (h : Heap α) (nd : Nd n) (hb : Built zero h nd) :
    (∀ i, Inside nd i → 0 ≤ nd.addr i ∧ nd.addr i < (h.blk nd.blk).size) ∧
      ∀ i j, Inside nd i → Inside nd j → nd.addr i = nd.addr j → i = j :=
  ⟨(wf hb).range, (wf hb).inj⟩

/-- **C96.** What is written to an element is read back from it, and from no other element of the array. -/
theorem C96_put_get (zero : α) (h : Heap α) (nd : Nd n) (hb : Built zero h nd) (i : Fin n → ℤ) (hi : Inside nd i) (v : α) :
    ∃ h', nd.put h i v = some h' ∧ nd.get h' i = some v ∧ ∀ j, Inside nd j → j ≠ i → nd.get h' j = nd.get h j := by
  have w := wf hb
  obtain ⟨h', e, _, e2, e3⟩ := wr_at (w.range i hi) v
  unfold wr at e
  rw [elem_addr, Option.bind_some] at e
  refine ⟨h', e, ?_, fun j hj hij => ?_⟩
  · rw [get_eq w e2 hi, e3, if_pos ⟨rfl, rfl⟩]
  · rw [get_eq w e2 hj, e3, if_neg fun c => hij (w.inj j i hj hi c.2), get_eq w (fun _ => rfl) hj]

/-- **C96.** A new array has memory of its own that consists of its elements, whatever the order of the dimensions in memory; all
its elements are zero, and all other memory is as before. -/
theorem C96_setup (zero : α) (h h' : Heap α) (ty : Ty) (dims offs : Fin n → ℤ) (perm : Fin n → Fin n) (nd : Nd n) (hd : ∀ d, 0 < dims d)
    (hp : Function.Injective perm) (e : setup zero h ty dims offs perm = some (h', nd)) :
    nd.dims = dims ∧ nd.offs = offs ∧ Fills h' nd ∧ (∀ i, Inside nd i → nd.get h' i = some zero) ∧ nd.blk = h.next ∧
      ∀ b, b ≠ nd.blk → h'.blk b = h.blk b := by
  have hs := setup_spec e
  have w := wf_setup hd hp e
  have hsz : (h'.blk nd.blk).size = nd.len := by rw [hs.2.1, hs.2.2, Function.update_self]
  refine ⟨by rw [hs.2.2], by rw [hs.2.2], ⟨hsz, fun k h0 h1 => setup_onto hd hp e h0 (by rw [hsz]; exact h1)⟩, fun i hi => ?_,
    by rw [hs.2.2], fun b hb => ?_⟩
  · rw [get_eq w (fun _ => rfl) hi, hs.2.1, hs.2.2, Function.update_self]
  · rw [hs.2.2] at hb
    rw [hs.2.1, Function.update_of_ne hb]

/-- **C96.** Element `i` of a view is the element of its base as far from the view's origin in the base as `i` is from the first
index of the view. -/
theorem C96_view (h : Heap α) (base v : Nd n) (dims offs viewOffs : Fin n → ℤ) (e : view base dims offs viewOffs = some v) :
    v.dims = dims ∧ v.offs = offs ∧ ∀ i, Inside v i →
      Inside base (fun d => viewOffs d + (i d - offs d)) ∧ v.get h i = base.get h fun d => viewOffs d + (i d - offs d) := by
  have hv := view_spec e
  refine ⟨by rw [hv.2], by rw [hv.2], fun i hi => ?_⟩
  have e1 : (fun d => viewOffs d + (i d - offs d)) = fun d => i d - offs d + viewOffs d := funext fun d => by ring
  rw [e1]
  refine ⟨view_inside e hi, ?_⟩
  unfold Nd.get
  rw [view_addr e, show v.blk = base.blk by rw [hv.2]]

/-- **C96.** An array is reported to be contiguous in Fortran order exactly if its elements, counted with the first index varying
fastest, lie one after another in memory. -/
theorem C96_contiguous (zero : α) (h : Heap α) (nd : Nd n) (hb : Built zero h nd) :
    fContiguous nd = true ↔ ∀ i, Inside nd i → nd.addr i = nd.addr nd.offs + rank nd i :=
  ⟨fun hc _ hi => contiguous_addr hc hi, contiguous_of (wf hb)⟩

/-- **C96.** `mrc_ndarray_set` gives the value to all elements of the array, and changes nothing else in memory, for all arrays
whose extents in bytes fit into an `int`. -/
theorem C96_set_partial (zero : α) (h : Heap α) (nd : Nd n) (hb : Built zero h nd) (hs : Small nd) (fuel : ℕ) (hf : count nd < fuel) (v : α) :
    ∃ h', set fuel h nd v = some h' ∧ OnlyIn nd h h' ∧ ∀ i, Inside nd i → nd.get h' i = some v :=
  set_spec (wf hb) hs hf v

/-- **C96.** `mrc_ndarray_set` of a view sets the elements of the base in the window of the view, and no other element of the base. -/
theorem C96_set_view_partial (zero : α) (h : Heap α) (base v : Nd n) (dims offs viewOffs : Fin n → ℤ) (hb : Built zero h base)
    (hd : ∀ d, 0 < dims d) (e : view base dims offs viewOffs = some v) (hs : Small v) (fuel : ℕ) (hf : count v < fuel) (x : α) :
    ∃ h', set fuel h v x = some h' ∧ ∀ j, Inside base j →
      ((∀ d, viewOffs d ≤ j d ∧ j d < viewOffs d + dims d) → base.get h' j = some x) ∧
      ((¬ ∀ d, viewOffs d ≤ j d ∧ j d < viewOffs d + dims d) → base.get h' j = base.get h j) := by
  have w := wf hb
  have hv := view_spec e
  have hbv : v.blk = base.blk := by rw [hv.2]
  obtain ⟨h', e', o, hx⟩ := set_spec (wf (Built.view hb hd e)) hs hf x
  refine ⟨h', e', fun j hj => ⟨fun hw => ?_, fun hw => ?_⟩⟩
  · have hi : Inside v fun d => j d - viewOffs d + offs d := fun d => by
      have := hw d
      rw [hv.2]
      dsimp only
      omega
    have := hx _ hi
    unfold Nd.get at this ⊢
    rw [view_addr e, hbv] at this
    rw [← this]
    congr 2
    funext d
    omega
  · rw [get_eq w o.2.1 hj, get_eq w (fun _ => rfl) hj]
    congr 1
    refine o.2.2 _ _ ?_
    rintro ⟨i, hi, _, ei⟩
    rw [view_addr e] at ei
    have := w.inj _ _ hj (view_inside e hi) ei
    refine hw fun d => ?_
    have h1 := hi d
    rw [hv.2] at h1
    rw [this]
    dsimp only at h1 ⊢
    omega

/-- **C96.** `mrc_ndarray_scale` multiplies every element once, and changes nothing else in memory. -/
theorem C96_scale_partial [Mul α] (zero : α) (h : Heap α) (nd : Nd n) (hb : Built zero h nd) (hs : Small nd) (fuel : ℕ)
    (hf : count nd < fuel) (v : α) :
    ∃ h', scale fuel h nd v = some h' ∧ OnlyIn nd h h' ∧ ∀ i, Inside nd i → nd.get h' i = (nd.get h i).map (· * v) :=
  scale_spec (wf hb) hs hf v

/-- **C96.** `mrc_ndarray_norm` returns the largest absolute value of an element. -/
theorem C96_norm_partial [Ring α] [LinearOrder α] [IsOrderedRing α] (h : Heap α) (nd : Nd n) (hb : Built 0 h nd) (hs : Small nd) (fuel : ℕ)
    (hf : count nd < fuel) :
    ∃ x, norm fuel h nd = some x ∧ (∀ i y, Inside nd i → nd.get h i = some y → |y| ≤ x) ∧
      ∃ i y, Inside nd i ∧ nd.get h i = some y ∧ x = |y| := by
  have w := wf hb
  obtain ⟨x, e, h0, h1, h2⟩ := norm_spec w hs hf
  refine ⟨x, e, fun i y hi hy => h1 i hi y hy, ?_⟩
  rcases h2 with rfl | h2
  · have ho := inside_offs w
    have hg := get_eq w (fun _ => rfl) ho
    exact ⟨_, _, ho, hg, le_antisymm (abs_nonneg _) (h1 _ ho _ hg)⟩
  · exact h2

/-- **C96.** `mrc_ndarray_copy` between arrays of the same shape and type in different memory: afterwards every element has the
value of the corresponding element of the source, and nothing else in memory has changed, provided that, if both are contiguous,
both begin where their memory begins. -/
theorem C96_copy_partial (zero : α) (h : Heap α) (dst src : Nd n) (hd : Built zero h dst) (hs : Built zero h src) (sd : Small dst)
    (ss : Small src) (hsh : dst.dims = src.dims) (ht : dst.ty = src.ty) (hb : dst.blk ≠ src.blk)
    (hc : fContiguous dst = true → fContiguous src = true → dst.addr dst.offs = 0 ∧ src.addr src.offs = 0)
    (fuel : ℕ) (hf : count dst < fuel) :
    ∃ h', copy fuel h dst src = some h' ∧ OnlyIn dst h h' ∧ ∀ i, Inside dst i → dst.get h' i = src.get h (corr dst src i) := by
  by_cases c : (fContiguous dst && fContiguous src) = true
  · rw [Bool.and_eq_true] at c
    obtain ⟨zd, zs⟩ := hc c.1 c.2
    exact copy_vec (wf hd) (wf hs) (fun d => congrFun hsh d) ht hb c.1 c.2 zd zs fuel
  · exact copy_loop (wf hd) (wf hs) sd ss (fun d => congrFun hsh d) ht hb c hf

/-- **C96.** `mrc_fld_axpy` of two fields with memory of their own and the same order of the dimensions: every element of `y` gets
`a` times the corresponding element of `x` added, and nothing else in memory changes. -/
theorem C96_axpy_partial [Add α] [Mul α] (zero : α) (h : Heap α) (x y : Nd n) (hx : Built zero h x) (hy : Built zero h y)
    (fx : Fills h x) (fy : Fills h y) (hs : x.dims = y.dims) (ht : y.ty = x.ty) (hst : x.stride = y.stride) (a : α) :
    ∃ h', axpy h y a x = some h' ∧ OnlyIn y h h' ∧ ∀ i, Inside y i → ∃ u v, y.get h i = some u ∧ x.get h (corr y x i) = some v ∧
      y.get h' i = some (u + a * v) :=
  axpy_spec (wf hx) (wf hy) fx fy hs ht hst a

/-! ## Concrete arrays -/

/-- no memory yet -/
def ndH0 : Heap ℤ := ⟨0, fun _ => ⟨0, fun _ => 0⟩⟩

/-- an array of 2 times 2 elements -/
def ndBase (perm : Fin 2 → Fin 2) (b : ℕ) : Nd 2 := ⟨![2, 2], ![0, 0], ![0, 0], ndStride ![2, 2] perm, ∏ d, ![2, 2] d, .int, b⟩

/-- its second column -/
def ndCol (perm : Fin 2 → Fin 2) (b : ℕ) : Nd 2 :=
  ⟨![2, 1], ![0, 0], fun d => ![0, 0] d - ![0, 1] d + ![0, 0] d, ndStride ![2, 2] perm, ∏ d, ![2, 1] d, .int, b⟩

/-- an array of a column -/
def ndDst (b : ℕ) : Nd 2 := ⟨![2, 1], ![0, 0], ![0, 0], ndStride ![2, 1] id, ∏ d, ![2, 1] d, .int, b⟩

/-- memory for the two: 1, 2, 3, 4 and 0, 0 -/
def ndH (m : ℤ) : Heap ℤ := ⟨2, fun b => if b = 0 then ⟨4, fun k => k + 1⟩ else ⟨m, fun _ => 0⟩⟩

theorem ndBase_built (perm : Fin 2 → Fin 2) (hp : Function.Injective perm) (b : ℕ) (h : Heap ℤ) (hn : b < h.next)
    (hs : (h.blk b).size = 4) : Built 0 h (ndBase perm b) := by
  have e : setup (0 : ℤ) ⟨b, fun c => ⟨(h.blk c).size, fun _ => 0⟩⟩ .int ![2, 2] ![0, 0] perm = some
      (⟨b + 1, Function.update (fun c => ⟨(h.blk c).size, fun _ => 0⟩) b ⟨∏ d, ![2, 2] d, fun _ => 0⟩⟩, ndBase perm b) :=
    setup_some (by decide) (by decide +kernel) (by decide +kernel)
  refine Built.later (Built.setup (by decide) hp e) hn fun c _ => ?_
  by_cases hc : c = b
  · subst hc
    rw [hs]
    dsimp only
    rw [Function.update_self]
    decide +kernel
  · dsimp only
    rw [Function.update_of_ne hc]

theorem ndDst_built (b : ℕ) (h : Heap ℤ) (hn : b < h.next) (hs : (h.blk b).size = 2) : Built 0 h (ndDst b) := by
  have e : setup (0 : ℤ) ⟨b, fun c => ⟨(h.blk c).size, fun _ => 0⟩⟩ .int ![2, 1] ![0, 0] id = some
      (⟨b + 1, Function.update (fun c => ⟨(h.blk c).size, fun _ => 0⟩) b ⟨∏ d, ![2, 1] d, fun _ => 0⟩⟩, ndDst b) :=
    setup_some (by decide) (by decide +kernel) (by decide +kernel)
  refine Built.later (Built.setup (by decide) Function.injective_id e) hn fun c _ => ?_
  by_cases hc : c = b
  · subst hc
    rw [hs]
    dsimp only
    rw [Function.update_self]
    decide +kernel
  · dsimp only
    rw [Function.update_of_ne hc]

theorem ndCol_view (perm : Fin 2 → Fin 2) (b : ℕ) : view (ndBase perm b) ![2, 1] ![0, 0] ![0, 1] = some (ndCol perm b) :=
  view_some (by unfold ndBase; dsimp only; decide +kernel) (by decide +kernel) (by decide +kernel)

theorem ndCol_built (perm : Fin 2 → Fin 2) (hp : Function.Injective perm) (b : ℕ) (h : Heap ℤ) (hn : b < h.next)
    (hs : (h.blk b).size = 4) : Built 0 h (ndCol perm b) :=
  Built.view (ndBase_built perm hp b h hn hs) (by decide) (ndCol_view perm b)

theorem ndSwap_inj : Function.Injective (![1, 0] : Fin 2 → Fin 2) := by decide

/-- a view that is not contiguous meets the hypotheses of `C96_set_partial`, `C96_scale_partial`, `C96_norm_partial`, `C96_address`,
and, together with an array, those of `C96_copy_partial` -/
example : Built 0 (ndH 2) (ndCol ![1, 0] 0) ∧ Small (ndCol ![1, 0] 0) ∧ Built 0 (ndH 2) (ndDst 1) ∧ Small (ndDst 1) ∧
    (ndDst 1).dims = (ndCol ![1, 0] 0).dims ∧ fContiguous (ndCol ![1, 0] 0) = false ∧ fContiguous (ndDst 1) = true ∧
    count (ndCol ![1, 0] 0) = 2 ∧ Inside (ndCol ![1, 0] 0) ![1, 0] ∧ (ndCol ![1, 0] 0).get (ndH 2) ![1, 0] = some 4 := by
  refine ⟨ndCol_built _ ndSwap_inj _ _ (by decide) rfl, by unfold Small; decide +kernel, ndDst_built _ _ (by decide) rfl,
    by unfold Small; decide +kernel, rfl, by decide +kernel, by decide +kernel, by decide +kernel, by unfold Inside; decide +kernel, by decide +kernel⟩

/-- two fields meet the hypotheses of `C96_axpy_partial` -/
example : Built 0 (ndH 4) (ndBase ![1, 0] 0) ∧ Built 0 (ndH 4) (ndBase ![1, 0] 1) ∧ Fills (ndH 4) (ndBase ![1, 0] 0) := by
  refine ⟨ndBase_built _ ndSwap_inj _ _ (by decide) rfl, ndBase_built _ ndSwap_inj _ _ (by decide) rfl, by decide +kernel, fun k h0 h1 => ?_⟩
  have h1 : k < 4 := by
    have e : (ndBase ![1, 0] 0).len = 4 := by decide +kernel
    omega
  have : k = 0 ∨ k = 1 ∨ k = 2 ∨ k = 3 := by omega
  rcases this with rfl | rfl | rfl | rfl
  · exact ⟨![0, 0], by unfold Inside; decide +kernel, by decide +kernel⟩
  · exact ⟨![0, 1], by unfold Inside; decide +kernel, by decide +kernel⟩
  · exact ⟨![1, 0], by unfold Inside; decide +kernel, by decide +kernel⟩
  · exact ⟨![1, 1], by unfold Inside; decide +kernel, by decide +kernel⟩

/-- **C96, violated.** Copying a contiguous view that does not begin where its base begins, like one component of a field, copies
the beginning of the base instead: here the first column of an array, although the view is its second column. -/
theorem C96_copy_view_violation : ∃ (h h' : Heap ℤ) (dst src : Nd 2) (i : Fin 2 → ℤ), Built 0 h dst ∧ Built 0 h src ∧ Small dst ∧ Small src ∧
    dst.dims = src.dims ∧ dst.ty = src.ty ∧ dst.blk ≠ src.blk ∧ (∀ fuel, copy fuel h dst src = some h') ∧ Inside dst i ∧
    dst.get h' i ≠ src.get h (corr dst src i) := by
  refine ⟨ndH 2, (copy 0 (ndH 2) (ndDst 1) (ndCol id 0)).get (by decide +kernel), ndDst 1, ndCol id 0, ![0, 0], ndDst_built _ _ (by decide) rfl, ndCol_built _ Function.injective_id _ _ (by decide) rfl,
    by unfold Small; decide +kernel, by unfold Small; decide +kernel, rfl, rfl, by decide, fun fuel => ?_, by unfold Inside; decide +kernel, ?_⟩
  · rw [copy_fuel (by decide +kernel), Option.some_get]
  · decide +kernel

/-- **C96, violated.** `mrc_fld_axpy` accepts fields of the same shape whose dimensions are in different order in memory, and then
adds the wrong elements. -/
theorem C96_axpy_layout_violation : ∃ (h h' : Heap ℤ) (x y : Nd 2) (i : Fin 2 → ℤ), Built 0 h x ∧ Built 0 h y ∧ x.dims = y.dims ∧
    x.ty = y.ty ∧ axpy h y 1 x = some h' ∧ Inside y i ∧ y.get h i = some 0 ∧ y.get h' i ≠ x.get h (corr y x i) := by
  refine ⟨ndH 4, (axpy (ndH 4) (ndBase id 1) 1 (ndBase ![1, 0] 0)).get (by decide +kernel), ndBase ![1, 0] 0, ndBase id 1, ![1, 0], ndBase_built _ ndSwap_inj _ _ (by decide) rfl,
    ndBase_built _ Function.injective_id _ _ (by decide) rfl, rfl, rfl, (Option.some_get _).symm, by unfold Inside; decide +kernel,
    by decide +kernel, by decide +kernel⟩

/-- **C96, violated.** `mrc_ndarray_set` of an array without elements writes outside of the array's memory. -/
theorem C96_empty_violation : ∃ (h : Heap ℤ) (nd : Nd 1), setup 0 ndH0 .double ![0] ![0] id = some (h, nd) ∧ (∀ i, ¬ Inside nd i) ∧
    (∃ it p, itAll nd = some it ∧ it.ptr = some p ∧ ∀ v, wr nd h p v = none) ∧ ∀ fuel v, set fuel h nd v = none := by
  refine ⟨_, _, setup_some (by decide) (by decide +kernel) (by decide +kernel), fun i hi => ?_, ⟨_, _, rfl, rfl, fun v => rfl⟩, fun fuel v => ?_⟩
  · have := hi 0
    simp at this
    omega
  · cases fuel <;> rfl

/-- **C96, violated.** `mrc_ndarray_set` of an array of 2 GiB, within the limit on the number of elements, writes outside of the
array's memory, as the stride in bytes does not fit into an `int`. -/
theorem C96_large_violation : ∃ (h : Heap ℤ) (nd : Nd 2), setup 0 ndH0 .double ![2 ^ 28, 1] ![0, 1] id = some (h, nd) ∧ Built 0 h nd ∧
    (∃ it p, itAll nd = some it ∧ it.ptr = some p ∧ ∀ v, wr nd h p v = none) ∧ ∀ fuel v, set fuel h nd v = none := by
  have e := setup_some (zero := (0 : ℤ)) (h := ndH0) (ty := .double) (dims := ![2 ^ 28, 1]) (offs := ![0, 1]) (perm := id) (by decide)
    (by decide +kernel) (by decide +kernel)
  refine ⟨_, _, e, Built.setup (by decide) Function.injective_id e, ⟨_, _, rfl, rfl, fun v => rfl⟩, fun fuel v => ?_⟩
  cases fuel <;> rfl

end Psc.Props
