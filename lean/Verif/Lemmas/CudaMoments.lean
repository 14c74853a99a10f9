import Verif.Lemmas.CudaPicFlds
import Verif.Lemmas.Moments
import Verif.Spec.CudaMoments

/-! Lemmas for moments on the GPU -/

namespace Psc.CudaMom

open Domain Ddc FieldStep Moments
open Cuda CudaFlds CudaBnd CudaPic
open Spec.CudaPic Spec.CudaFlds Spec.CudaBnd Spec.CudaMom

variable {X : CudaPic.Setup} {C : Call → Prop} {I : Item}

/-! ## one particle -/

/-- an addition of the CPU as one of the GPU -/
def toAdd (e : ℕ × Add ℝ) : (ℕ × I3) × ℝ := ((e.1, ![e.2.i, e.2.j, e.2.k]), e.2.v)

/-- what the CPU adds for a particle -/
noncomputable def cpuAdds (P : Push.Params) (k : Kern) (dim : Dim) (q : Push.Prt) : List (ℕ × Add ℝ) :=
  ((moment k).calls P q (weight P q)).flatMap fun mv =>
    (Deposit.code (code k dim).dep P.dx P.fnqs q.x mv.2).map fun e => (mv.1, e)

theorem calc_v_eq (q : CudaPrts.Sto ℝ) (d : Fin 3) : Push.calc_v q.u d = vxi (ofSto q) d := by
  unfold Push.calc_v Push.rsqrt vxi ofSto
  dsimp only
  fin_cases d <;> rfl

theorem deposit_nc (P : Push.Params) (dim : Dim) (m : ℕ) (x : R3 ℝ) {v v' : ℝ} (h : v = P.fnqs * v') :
    deposit dim m (findIdxOff (fun d => 1 / P.dx d) x 0).1 (findIdxOff (fun d => 1 / P.dx d) x 0).2 v =
      ((Deposit.code (code .rho dim).dep P.dx P.fnqs x v').map fun e => (m, e)).map toAdd := by
  subst h
  cases dim
  · simp only [deposit, findIdxOff, Deposit.code, code, Code.dep, Deposit.nc1_yz, Deposit.first_yz, List.map_cons, List.map_nil, toAdd,
      add_zero]
    refine List.ext_getElem (by rfl) fun i h1 h2 => ?_
    have hi : i < 4 := h1
    match i, hi with
    | 0, _ | 1, _ | 2, _ | 3, _ => exact Prod.ext rfl (by simp only [List.getElem_cons_zero, List.getElem_cons_succ]; ring)
  · simp only [deposit, findIdxOff, Deposit.code, code, Code.dep, Deposit.nc1_xyz, Deposit.first_xyz, List.map_cons, List.map_nil, toAdd,
      add_zero]
    refine List.ext_getElem (by rfl) fun i h1 h2 => ?_
    have hi : i < 8 := h1
    match i, hi with
    | 0, _ | 1, _ | 2, _ | 3, _ | 4, _ | 5, _ | 6, _ | 7, _ =>
      exact Prod.ext rfl (by simp only [List.getElem_cons_zero, List.getElem_cons_succ]; ring)

theorem deposit_cc (P : Push.Params) (dim : Dim) (m : ℕ) (x : R3 ℝ) {v v' : ℝ} (h : v = P.fnqs * v') :
    deposit dim m (findIdxOff (fun d => 1 / P.dx d) x (-(1/2))).1 (findIdxOff (fun d => 1 / P.dx d) x (-(1/2))).2 v =
      ((Deposit.code (code .n dim).dep P.dx P.fnqs x v').map fun e => (m, e)).map toAdd := by
  subst h
  cases dim
  · simp only [deposit, findIdxOff, Deposit.code, code, Code.dep, Deposit.cc1_yz, Deposit.first_yz, List.map_cons, List.map_nil, toAdd,
      add_zero, ← sub_eq_add_neg]
    refine List.ext_getElem (by rfl) fun i h1 h2 => ?_
    have hi : i < 4 := h1
    match i, hi with
    | 0, _ | 1, _ | 2, _ | 3, _ => exact Prod.ext rfl (by simp only [List.getElem_cons_zero, List.getElem_cons_succ]; ring)
  · simp only [deposit, findIdxOff, Deposit.code, code, Code.dep, Deposit.cc1_xyz, Deposit.first_xyz, List.map_cons, List.map_nil, toAdd,
      add_zero, ← sub_eq_add_neg]
    refine List.ext_getElem (by rfl) fun i h1 h2 => ?_
    have hi : i < 8 := h1
    match i, hi with
    | 0, _ | 1, _ | 2, _ | 3, _ | 4, _ | 5, _ | 6, _ | 7, _ =>
      exact Prod.ext rfl (by simp only [List.getElem_cons_zero, List.getElem_cons_succ]; ring)

theorem adds_cpu (P : Push.Params) {nk : ℕ} (k : Kern) (dim : Dim) {q : CudaPrts.Sto ℝ} (h1 : q.kind < nk) (h2 : P.q q.kind ≠ 0) :
    k.adds P nk dim q = some ((cpuAdds P k dim (ofSto q)).map toAdd) := by
  have hw : prt_w P nk q = some (weight P (ofSto q)) := if_pos ⟨h1, h2⟩
  have hk : (ofSto q).kind = q.kind := rfl
  have hu : (ofSto q).u = q.u := rfl
  have hx : (ofSto q).x = q.x := rfl
  unfold cpuAdds
  cases k
  · simp only [Kern.adds, hw, Option.map_some, moment, Moment.calls, List.flatMap_cons, List.flatMap_nil, List.append_nil]
    rw [deposit_nc P dim 0 q.x (v' := weight P (ofSto q) * P.q q.kind) (by ring)]
    rfl
  · simp only [Kern.adds, hw, Option.map_some, moment, Moment.calls, List.flatMap_cons, List.flatMap_nil, List.append_nil]
    rw [deposit_cc P dim q.kind q.x (v' := weight P (ofSto q)) (by ring)]
    cases dim <;> rfl
  · simp only [Kern.adds, hw, Option.map_some, moment, Moment.calls, List.flatMap_cons, List.flatMap_nil, List.append_nil,
      List.map_append, calc_v_eq, hk, hu, hx]
    generalize weight P (ofSto q) = w
    generalize vxi (ofSto q) = v
    have e : (code .all dim).dep = (code .n dim).dep := by cases dim <;> rfl
    rw [e]
    rw [deposit_cc P dim _ q.x (v := w * P.fnqs * P.q q.kind) (v' := w * P.q q.kind) (by ring),
      deposit_cc P dim _ q.x (v := w * P.fnqs * P.q q.kind * v 0) (v' := w * P.q q.kind * v 0) (by ring),
      deposit_cc P dim _ q.x (v := w * P.fnqs * P.q q.kind * v 1) (v' := w * P.q q.kind * v 1) (by ring),
      deposit_cc P dim _ q.x (v := w * P.fnqs * P.q q.kind * v 2) (v' := w * P.q q.kind * v 2) (by ring),
      deposit_cc P dim _ q.x (v := w * P.fnqs * P.m q.kind * q.u 0) (v' := w * P.m q.kind * q.u 0) (by ring),
      deposit_cc P dim _ q.x (v := w * P.fnqs * P.m q.kind * q.u 1) (v' := w * P.m q.kind * q.u 1) (by ring),
      deposit_cc P dim _ q.x (v := w * P.fnqs * P.m q.kind * q.u 2) (v' := w * P.m q.kind * q.u 2) (by ring),
      deposit_cc P dim _ q.x (v := w * P.fnqs * P.m q.kind * q.u 0 * v 0) (v' := w * P.m q.kind * q.u 0 * v 0) (by ring),
      deposit_cc P dim _ q.x (v := w * P.fnqs * P.m q.kind * q.u 1 * v 1) (v' := w * P.m q.kind * q.u 1 * v 1) (by ring),
      deposit_cc P dim _ q.x (v := w * P.fnqs * P.m q.kind * q.u 2 * v 2) (v' := w * P.m q.kind * q.u 2 * v 2) (by ring),
      deposit_cc P dim _ q.x (v := w * P.fnqs * P.m q.kind * q.u 0 * v 1) (v' := w * P.m q.kind * q.u 0 * v 1) (by ring),
      deposit_cc P dim _ q.x (v := w * P.fnqs * P.m q.kind * q.u 1 * v 2) (v' := w * P.m q.kind * q.u 1 * v 2) (by ring),
      deposit_cc P dim _ q.x (v := w * P.fnqs * P.m q.kind * q.u 2 * v 0) (v' := w * P.m q.kind * q.u 2 * v 0) (by ring)]
    simp only [List.append_assoc]

theorem comp_names_eq (k : Kern) (kinds : List String) : k.comp_names kinds = (moment k).comp_names kinds := by
  cases k <;> rfl

theorem n_comps (I : Item) (X : CudaPic.Setup) : (I.k.comp_names I.kinds).length = Moments.n_comps (grid I X) (moment I.k) := by
  unfold Moments.n_comps
  rw [comp_names_eq]
  rfl

/-- where they are -/
theorem cpuAdds_in (hF : Fits X C I) {q : Push.Prt} (h1 : q.kind < I.kinds.length)
    (h3 : ∀ d, 0 ≤ q.x d ∧ q.x d < X.S.c.ldims d * X.S.P.dx d) :
    ∀ e ∈ cpuAdds X.S.P I.k I.dim q, Moments.inBounds (grid I X) (moment I.k) e := by
  intro e he
  obtain ⟨mv, hmv, he⟩ := List.mem_flatMap.1 he
  obtain ⟨a, ha, rfl⟩ := List.mem_map.1 he
  refine ⟨Moments.calls_lt (moment I.k) (grid I X) q _ h1 mv hmv, ?_⟩
  have hn : ∀ d, 0 ≤ q.x d * (1 / X.S.P.dx d) ∧ q.x d * (1 / X.S.P.dx d) < X.S.c.ldims d := fun d => by
    have := Moments.norm_in hF.grid.dx h3 d
    unfold Moments.norm at this
    rw [mul_one_div]
    exact this
  have := Moments.stored_of hF.grid (Moments.dep_in _ X.S.c.ldims _ _ hn a ha)
  exact ⟨this 0, this 1, this 2⟩

end Psc.CudaMom
