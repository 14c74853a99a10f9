import Mathlib.Data.Rat.Floor
import Mathlib.Tactic.FinCases
import Mathlib.Tactic.NormNum
import Verif.Lemmas.CudaFldsMarder

/-!
# C73: fields on the GPU
-/

namespace Psc.Props

open Psc.Fields Psc.FieldStep Psc.CudaFlds Psc.Spec.CudaFlds Psc.Ddc

section
variable {K : Type} [Field K]

theorem gives_of {R : List K} {ls : List (List (Stmt K))} {L : Layout} {M : List K} {S' : RankState K}
    (h : ∀ o, Run R ls M o → ls.flatten.Pairwise Apart ∧ ∃ M', o = some M' ∧ Stores L S' M') : Gives R ls L M S' := by
  obtain ⟨o, ho⟩ := run_exists R ls M
  obtain ⟨h1, M', rfl, -⟩ := h o ho
  exact ⟨fun l hl => (List.pairwise_flatten.1 h1).1 l hl, ⟨M', ho⟩, fun o ho => (h o ho).2⟩

/-- **C73.**  In 3-d, the push of the electric and the magnetic field on the GPU gives what that on the CPU gives, on every
process, for every field, time step and number of patches, in whatever order the threads run; no two threads race. -/
theorem C73_push_xyz (g : GridP K) (L : Layout) (hinv : ∀ d, g.inv d = false) (hl : L.ldims = g.ldims)
    (hib : ∀ d, L.ibn d = 2) (hnc : L.nc = 9) (fac : K) (σ : Glob K) (r : ℕ) (M : List K) (hM : Stores L (σ r) M) :
    (∃ ls, CudaFlds.push_E_xyz g L fac = some ls ∧ Gives [] ls L M (pushE g fac σ r)) ∧
      Gives [] (CudaFlds.push_H_xyz g L fac) L M (pushH g fac σ r) := by
  refine ⟨?_, gives_of fun o ho => push_H_xyz_spec hinv hl hib hnc fac hM ho⟩
  have : ∃ ls, CudaFlds.push_E_xyz g L fac = some ls := by
    unfold CudaFlds.push_E_xyz
    by_cases hn : L.np = 0
    · rw [if_pos hn]; exact ⟨_, rfl⟩
    · rw [if_neg hn, if_pos ⟨hnc, hib⟩]; exact ⟨_, rfl⟩
  obtain ⟨ls, e⟩ := this
  exact ⟨ls, e, gives_of fun o ho => push_E_xyz_spec hinv hl hib hnc fac hM e ho⟩

/-- **C73.**  The same in the yz plane. -/
theorem C73_push_yz (g : GridP K) (L : Layout) (hY : YzOk g L) (fac : K) (σ : Glob K) (r : ℕ) (M : List K)
    (hM : Stores L (σ r) M) :
    (∃ ls, CudaFlds.push_E_yz g L fac = some ls ∧ Gives [] ls L M (pushE g fac σ r)) ∧
      Gives [] (CudaFlds.push_H_yz g L fac) L M (pushH g fac σ r) := by
  refine ⟨?_, gives_of fun o ho => push_H_yz_spec hY fac hM ho⟩
  have : ∃ ls, CudaFlds.push_E_yz g L fac = some ls := by
    unfold CudaFlds.push_E_yz
    by_cases hn : L.np = 0
    · rw [if_pos hn]; exact ⟨_, rfl⟩
    · rw [if_neg hn, if_pos ⟨hY.nc, hY.ibn⟩]; exact ⟨_, rfl⟩
  obtain ⟨ls, e⟩ := this
  exact ⟨ls, e, gives_of fun o ho => push_E_yz_spec hY fac hM e ho⟩

/-- **C73, full statement** for the Marder correction: that on the GPU gives what that on the CPU gives. -/
def C73_marder_full (K : Type) [Field K] : Prop :=
  ∀ (g : GridP K) (L Lr : Layout), YzOk g L ∨ ((∀ d, g.inv d = false) ∧ L.ldims = g.ldims ∧ ∀ d, L.ibn d = 2) → ResOk L Lr →
    ∀ (diff : K) (σ res : Glob K) (r : ℕ) (M R : List K), Stores L (σ r) M → Stores Lr (res r) R →
      ∃ ls, CudaFlds.correct g L Lr L.ibn diff = some ls ∧ Gives R ls L M (FieldStep.correct g diff res σ r)

theorem correct_some (g : GridP K) (L Lr : Layout) (h : Lr.ibn = L.ibn) (diff : K) :
    ∃ ls, CudaFlds.correct g L Lr L.ibn diff = some ls := by
  unfold CudaFlds.correct
  rw [if_pos ⟨rfl, h⟩]
  exact ⟨_, rfl⟩

/-- **C73.**  In the yz plane, the Marder correction on the GPU gives what that on the CPU gives. -/
theorem C73_marder_yz (g : GridP K) (L Lr : Layout) (hY : YzOk g L) (hres : ResOk L Lr) (diff : K) (σ res : Glob K) (r : ℕ)
    (M R : List K) (hM : Stores L (σ r) M) (hR : Stores Lr (res r) R) :
    ∃ ls, CudaFlds.correct g L Lr L.ibn diff = some ls ∧ Gives R ls L M (FieldStep.correct g diff res σ r) := by
  obtain ⟨ls, e⟩ := correct_some g L Lr hres.ibn diff
  refine ⟨ls, e, gives_of fun o ho => ?_⟩
  have := correct_yz_spec hY hres diff hM hR e ho
  rwa [show corrected L g.act (marderFac g diff) id (σ r) (res r) = FieldStep.correct g diff res σ r from
    funext fun p => (cpu_correct g L hY.ldims diff res σ r p).symm] at this

/-- **C73, partial.**  In 3-d, the Marder correction on the GPU gives for all fields but the x component of the electric field
what that on the CPU gives; to the x component it adds, in the cells of the patch, the difference of the residual along y,
where the CPU adds that along x.  Missing from `C73_marder_full`: the x component. -/
theorem C73_marder_xyz_partial (g : GridP K) (L Lr : Layout) (hinv : ∀ d, g.inv d = false) (hl : L.ldims = g.ldims)
    (hib : ∀ d, L.ibn d = 2) (hres : ResOk L Lr) (diff : K) (σ res : Glob K) (r : ℕ)
    (M R : List K) (hM : Stores L (σ r) M) (hR : Stores Lr (res r) R) :
    ∃ ls, CudaFlds.correct g L Lr L.ibn diff = some ls ∧ Gives R ls L M fun p mn =>
      if mn.1 = EX then
        σ r p mn + if ∀ d, 0 ≤ mn.2 d ∧ mn.2 d < g.ldims d then
          1/2 * g.dt * diff / g.dx 0 * (res r p (0, ![mn.2 0, mn.2 1 + 1, mn.2 2]) - res r p (0, mn.2)) else 0
      else FieldStep.correct g diff res σ r p mn := by
  obtain ⟨ls, e⟩ := correct_some g L Lr hres.ibn diff
  refine ⟨ls, e, gives_of fun o ho => ?_⟩
  have h := correct_xyz_spec hinv hres (fun d => by rw [hib d]; omega) diff hM hR e ho
  have hact : ∀ d, g.act d = true := fun d => by simp [GridP.act, hinv d]
  refine Eq.mp (congrArg (fun S => ls.flatten.Pairwise Apart ∧ ∃ M', o = some M' ∧ Stores L S M') ?_) h
  funext p mn
  obtain ⟨m, n⟩ := mn
  dsimp only
  by_cases hm : ∃ d : Fin 3, m = EX + d
  · obtain ⟨d, rfl⟩ := hm
    rw [corrected_E, cpu_correct g L hl, corrected_E]
    fin_cases d
    · refine Eq.trans ?_ (if_pos rfl).symm
      congr 1
      have hsh : Spec.Yee.shift n 1 1 = ![n 0, n 1 + 1, n 2] := by
        funext a; fin_cases a <;> simp [Spec.Yee.shift]
      by_cases hi : Inner L n
      · have hi' : ∀ d, 0 ≤ n d ∧ n d < g.ldims d := by rw [← hl]; exact hi
        rw [if_pos ⟨hact 0, hi⟩, if_pos hi', ← hsh]
        rfl
      · have hi' : ¬∀ d, 0 ≤ n d ∧ n d < g.ldims d := by rw [← hl]; exact hi
        rw [if_neg (fun h => hi h.2), if_neg hi']
    · refine Eq.trans ?_ (if_neg (by simp [EX])).symm; rfl
    · refine Eq.trans ?_ (if_neg (by simp [EX])).symm; rfl
  · rw [corrected_rest _ _ _ _ _ _ _ _ (fun d e => hm ⟨d, e⟩), if_neg (show ¬m = EX from fun e => hm ⟨0, e⟩), cpu_correct g L hl,
      corrected_rest _ _ _ _ _ _ _ _ (fun d e => hm ⟨d, e⟩)]

/-- **C73, violated by the code.**  In 3-d on the GPU an error in Gauss's law that varies only along x is never reduced: if the
residual in every cell is that of the next cell in y and that of the next in z, the correction leaves all fields as they are. -/
theorem C73_marder_ignores_x (g : GridP K) (L Lr : Layout) (hinv : ∀ d, g.inv d = false) (hl : L.ldims = g.ldims)
    (hib : ∀ d, L.ibn d = 2) (hres : ResOk L Lr) (diff : K) (σ res : Glob K) (r : ℕ)
    (M R : List K) (hM : Stores L (σ r) M) (hR : Stores Lr (res r) R)
    (hy : ∀ p n, res r p (0, ![n 0, n 1 + 1, n 2]) = res r p (0, n))
    (hz : ∀ p n, res r p (0, ![n 0, n 1, n 2 + 1]) = res r p (0, n)) :
    ∃ ls, CudaFlds.correct g L Lr L.ibn diff = some ls ∧ Gives R ls L M (σ r) := by
  obtain ⟨ls, e, h⟩ := C73_marder_xyz_partial g L Lr hinv hl hib hres diff σ res r M R hM hR
  refine ⟨ls, e, ?_⟩
  refine Eq.mp (congrArg (Gives R ls L M) ?_) h
  funext p mn
  obtain ⟨m, n⟩ := mn
  dsimp only
  rw [hy, sub_self, mul_zero, ite_self, add_zero]
  by_cases h0 : m = EX
  · rw [if_pos h0]
  rw [if_neg h0, cpu_correct g L hl]
  by_cases hm : ∃ d : Fin 3, m = EX + d
  · obtain ⟨d, rfl⟩ := hm
    rw [corrected_E]
    fin_cases d
    · exact absurd rfl h0
    · have hsh : Spec.Yee.shift n 1 1 = ![n 0, n 1 + 1, n 2] := by
        funext a; fin_cases a <;> simp [Spec.Yee.shift]
      simp only [id, Fin.mk_one]
      rw [hsh, hy, sub_self, mul_zero, ite_self, add_zero]
    · have hsh : Spec.Yee.shift n 2 1 = ![n 0, n 1, n 2 + 1] := by
        funext a; fin_cases a <;> simp [Spec.Yee.shift]
      simp only [id, Fin.reduceFinMk]
      rw [hsh, hz, sub_self, mul_zero, ite_self, add_zero]
  · rw [corrected_rest _ _ _ _ _ _ _ _ (fun d e => hm ⟨d, e⟩)]

/-! ## The hypotheses can be met -/

/-- memory with given fields -/
def gpuMem (L : Layout) (S : RankState K) : List K :=
  (List.range L.size).map fun a => S (a / L.im 0 / L.im 1 / L.im 2 / L.nc)
    (a / L.im 0 / L.im 1 / L.im 2 % L.nc, ![((a % L.im 0 : ℕ) : ℤ) - L.ibn 0, ((a / L.im 0 % L.im 1 : ℕ) : ℤ) - L.ibn 1,
      ((a / L.im 0 / L.im 1 % L.im 2 : ℕ) : ℤ) - L.ibn 2])

/-- Every field has a memory that stores it. -/
theorem gpuMem_stores (L : Layout) (S : RankState K) : Stores L S (gpuMem L S) := by
  refine ⟨by simp [gpuMem, Layout.size], fun p hp m hm n hn => ?_⟩
  have h0 : n 0 < L.im 0 := by have := hn 0; unfold Layout.im; omega
  have h1 : n 1 < L.im 1 := by have := hn 1; unfold Layout.im; omega
  have h2 : n 2 < L.im 2 := by have := hn 2; unfold Layout.im; omega
  have hd : ∀ {a b c : ℕ}, a < b → (a + b * c) / b = c ∧ (a + b * c) % b = a := by
    intro a b c h
    have hb : 0 < b := by omega
    exact ⟨by rw [Nat.add_mul_div_left _ _ hb, Nat.div_eq_of_lt h, Nat.zero_add],
      by rw [Nat.add_mul_mod_self_left, Nat.mod_eq_of_lt h]⟩
  have hlt : L.at ⟨n 0, n 1, n 2, m, p⟩ < L.size := at_lt ⟨h0, h1, h2, hm, hp⟩
  change (gpuMem L S)[L.at ⟨n 0, n 1, n 2, m, p⟩]? = _
  unfold gpuMem
  rw [List.getElem?_map, List.getElem?_range hlt, Option.map_some]
  congr 1
  unfold Layout.at
  dsimp only [Layout.off]
  rw [(hd h0).1, (hd h0).2, (hd h1).1, (hd h1).2, (hd h2).1, (hd h2).2, (hd hm).1, (hd hm).2]
  congr 2
  funext d
  fin_cases d <;> rfl

end

/-- a 3-d grid -/
def gpuFldGrid : GridP ℚ := ⟨![2, 3, 2], fun _ => false, ![1, 2, 3], 1/4⟩
def gpuFldL : Layout := ⟨![2, 3, 2], fun _ => 2, 9, 2⟩
def gpuFldLr : Layout := ⟨![2, 3, 2], fun _ => 2, 1, 2⟩

example : (∀ d, gpuFldGrid.inv d = false) ∧ gpuFldL.ldims = gpuFldGrid.ldims ∧ (∀ d, gpuFldL.ibn d = 2) ∧ gpuFldL.nc = 9 ∧
    Stores gpuFldL (fun p mn => p + mn.1 + mn.2 0 : RankState ℚ) (gpuMem gpuFldL fun p mn => p + mn.1 + mn.2 0) :=
  ⟨fun _ => rfl, rfl, fun _ => rfl, rfl, gpuMem_stores _ _⟩

/-- a grid in the yz plane -/
def gpuFldGridYz : GridP ℚ := ⟨![1, 3, 2], ![true, false, false], ![1, 2, 3], 1/4⟩
def gpuFldLYz : Layout := ⟨![1, 3, 2], ![0, 2, 2], 9, 2⟩

example : YzOk gpuFldGridYz gpuFldLYz :=
  ⟨⟨rfl, rfl, rfl⟩, rfl, rfl, ⟨rfl, rfl, rfl⟩, rfl, fun d => by fin_cases d <;> decide⟩

example : ResOk gpuFldLYz ⟨![1, 3, 2], ![0, 2, 2], 1, 2⟩ := ⟨rfl, rfl, rfl, by decide, rfl⟩

theorem gpuFldRes : ResOk gpuFldL gpuFldLr := ⟨rfl, rfl, rfl, by decide, rfl⟩

/-- **C73, violated by the code.**  The full statement is false: where the residual grows along x, the CPU changes the electric
field and the GPU does not. -/
theorem C73_marder_violated : ¬C73_marder_full ℚ := by
  intro h
  let σ : Glob ℚ := fun _ _ _ => 0
  let res : Glob ℚ := fun _ _ mn => mn.2 0
  have hM : Stores gpuFldL (σ 0) (gpuMem gpuFldL (σ 0)) := gpuMem_stores _ _
  have hR : Stores gpuFldLr (res 0) (gpuMem gpuFldLr (res 0)) := gpuMem_stores _ _
  obtain ⟨ls, e, -, ⟨M', hrun⟩, h1⟩ := h gpuFldGrid gpuFldL gpuFldLr (Or.inr ⟨fun _ => rfl, rfl, fun _ => rfl⟩) gpuFldRes 1 σ res 0 _ _ hM hR
  obtain ⟨ls', e', -, -, h2⟩ := C73_marder_ignores_x gpuFldGrid gpuFldL gpuFldLr (fun _ => rfl) rfl (fun _ => rfl) gpuFldRes 1 σ res 0
    _ _ hM hR (fun _ _ => rfl) (fun _ _ => rfl)
  obtain rfl := Option.some.inj (e.symm.trans e')
  obtain ⟨A, hA, -, sA⟩ := h1 _ hrun
  obtain ⟨B, hB, -, sB⟩ := h2 _ hrun
  obtain rfl := Option.some.inj (hA.symm.trans hB)
  have a := sA 0 (by decide) EX (by decide) (fun _ => 2) (by intro d; fin_cases d <;> decide)
  have b := sB 0 (by decide) EX (by decide) (fun _ => 2) (by intro d; fin_cases d <;> decide)
  have c := Option.some.inj (a.symm.trans b)
  rw [cpu_correct gpuFldGrid gpuFldL rfl] at c
  have c' := corrected_E gpuFldL gpuFldGrid.act (marderFac gpuFldGrid 1) id (σ 0) (res 0) 0 0 (fun d => ((2 : ℕ) : ℤ) - gpuFldL.ibn d)
  rw [if_pos ⟨rfl, by intro d; fin_cases d <;> decide⟩] at c'
  have c3 := c'.symm.trans c
  revert c3
  simp [σ, res, marderFac, gpuFldGrid, gpuFldL, Spec.Yee.shift]

end Psc.Props
