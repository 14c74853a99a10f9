import Verif.Lemmas.Refine

/-!
# C10, C11, C48: grid loops and the field push on one patch
-/

namespace Psc.Props

open Spec Yee Fields

/-! ## C48: grid loops -/

/-- **C48.** `Foreach_3d(l, r)` visits `(i, j, k)` iff, in every direction, the index lies in
`[-l, ldims + r)` when the direction is active and in `[0, ldims)` when it is invariant. -/
theorem C48_foreach_mem (ldims : I3) (inv : Fin 3 → Bool) (l r i j k : ℤ) :
    (i, j, k) ∈ foreach3d ldims inv l r ↔ ∀ d : Fin 3,
      let n : I3 := ![i, j, k]
      if inv d then 0 ≤ n d ∧ n d < ldims d else -l ≤ n d ∧ n d < ldims d + r := by
  rw [mem_foreach3d]
  refine forall_congr' fun d => ?_
  simp only
  split_ifs <;> simp

/-- **C48.** In an invariant direction (one cell per patch) exactly index 0 is visited. -/
theorem C48_foreach_invariant (ldims : I3) (inv : Fin 3 → Bool) (l r : ℤ)
    (h1 : ∀ d, inv d = true → ldims d = 1) (n : I3) :
    (n 0, n 1, n 2) ∈ foreach3d ldims inv l r ↔
      ∀ d, if inv d then n d = 0 else -l ≤ n d ∧ n d < ldims d + r := by
  rw [C48_foreach_mem]
  refine forall_congr' fun d => ?_
  have : (![n 0, n 1, n 2] : I3) d = n d := by fin_cases d <;> rfl
  simp only [this]
  split_ifs with hd
  · rw [h1 d hd]; omega
  · exact Iff.rfl

/-- **C48.** No index is visited twice. -/
theorem C48_foreach_nodup (ldims : I3) (inv : Fin 3 → Bool) (l r : ℤ) :
    (foreach3d ldims inv l r).Nodup := nodup_foreach3d ldims inv l r

example : foreach3d ![2, 1, 2] ![false, true, false] 1 0 =
    [(-1, 0, -1), (0, 0, -1), (1, 0, -1), (-1, 0, 0), (0, 0, 0), (1, 0, 0), (-1, 0, 1), (0, 0, 1),
      (1, 0, 1)] := by decide

/-! ## C10: div B on one patch -/

variable {K : Type*} [Field K]

/-- the magnetic field of a patch as a vector field on the grid -/
def Hof (F : Flds K) : VF K := fun d => cv (F.H d)
/-- the electric field of a patch -/
def Eof (F : Flds K) : VF K := fun d => cv (F.E d)
/-- the current of a patch -/
def Jof (F : Flds K) : VF K := fun d => cv (F.J d)

private theorem region_shift {g : GridP K} {n : I3} (hn : Region g 2 0 n) (d : Fin 3)
    (hd : g.act d = true) : Region g 2 1 (shift n d 1) := by
  have := hn.shift_up (d := d) (by simpa [GridP.act] using hd)
  simpa using this

/-- **C10.** A magnetic push by any fraction leaves div B unchanged in every cell whose faces are all
pushed, i.e. in all cells `-2 ≤ n < ldims` (all interior cells and the lower ghosts). -/
theorem C10_push_H_div (g : GridP K) (hg : GridOk g) (fac : K) (F : Flds K) (n : I3)
    (hn : Region g 2 0 n) :
    divH g.act g.dx (Hof (push_H g fac F)) n = divH g.act g.dx (Hof F) n := by
  rw [← divH_faraday g.act g.dx (fac * g.dt) (Eof F) (Hof F) n]
  have key : ∀ d m, Region g 2 1 m →
      Hof (push_H g fac F) d m = faraday g.act g.dx (fac * g.dt) (Eof F) (Hof F) d m := by
    intro d m hm
    have := (push_H_eq g hg fac F).2.2 d m
    rw [if_pos hm] at this
    simp only [Hof, this, faraday, show Eof F = fun d => cv (F.E d) from rfl]
    ring
  have hdF : ∀ d, dF g.act g.dx (Hof (push_H g fac F) d) d n =
      dF g.act g.dx (faraday g.act g.dx (fac * g.dt) (Eof F) (Hof F) d) d n := by
    intro d
    unfold dF
    split_ifs with hd
    · rw [key d n (hn.mono le_rfl (by omega)), key d _ (region_shift hn d hd)]
    · rfl
  simp only [divH, hdF]

/-- **C10.** Any number of magnetic pushes, each by its own fraction and with arbitrary electric fields
and currents present, leave div B unchanged. -/
theorem C10_pushes_div (g : GridP K) (hg : GridOk g) (F : Flds K)
    (ops : List (K × (Fin 3 → Comp K) × (Fin 3 → Comp K))) (n : I3) (hn : Region g 2 0 n) :
    divH g.act g.dx (Hof (ops.foldl (fun F op => push_H g op.1 { F with E := op.2.1, J := op.2.2 }) F)) n =
      divH g.act g.dx (Hof F) n := by
  induction ops generalizing F with
  | nil => rfl
  | cons op ops ih => rw [List.foldl_cons, ih, C10_push_H_div g hg _ _ n hn]; rfl

/-- the push is not a no-op, also with an invariant direction -/
example : (push_H (K := ℚ) ⟨![1, 2, 2], ![true, false, false], ![1, 1, 1], 1⟩ (1/2)
    ⟨fun _ _ _ _ => 0, fun d _ j k => if d = 0 then j * j + k else 0, fun _ _ _ _ => 0⟩).H 2 0 1 1 = 3/2 := by
  decide +kernel

example : Region (K := ℚ) ⟨![1, 2, 2], ![true, false, false], ![1, 1, 1], 1⟩ 2 0 ![0, -2, 1] := by
  intro d; fin_cases d <;> simp

/-! ## C11: div E on one patch -/

/-- **C11.** One electric push by any fraction changes div E at every node `0 ≤ n < ldims + 2` by exactly
`-dt div J`, whatever the magnetic field is. -/
theorem C11_push_E_div (g : GridP K) (hg : GridOk g) (fac : K) (F : Flds K) (n : I3)
    (hn : Region g 0 2 n) :
    divE g.act g.dx (Eof (push_E g fac F)) n =
      divE g.act g.dx (Eof F) n - fac * g.dt * divE g.act g.dx (Jof F) n := by
  rw [← divE_ampere g.act g.dx (fac * g.dt) (Eof F) (Hof F) (Jof F) n]
  have key : ∀ d m, Region g 1 2 m →
      Eof (push_E g fac F) d m = ampere g.act g.dx (fac * g.dt) (Eof F) (Hof F) (Jof F) d m := by
    intro d m hm
    have := (push_E_eq g hg fac F).2.2 d m
    rw [if_pos hm] at this
    simp only [Eof, this, ampere, show Hof F = fun d => cv (F.H d) from rfl, Jof]
  have hdB : ∀ d, dB g.act g.dx (Eof (push_E g fac F) d) d n =
      dB g.act g.dx (ampere g.act g.dx (fac * g.dt) (Eof F) (Hof F) (Jof F) d) d n := by
    intro d
    unfold dB
    split_ifs with hd
    · rw [key d n (hn.mono (by omega) le_rfl)]
      rw [key d _ (by simpa using hn.shift_dn (d := d) (by simpa [GridP.act] using hd))]
    · rfl
  simp only [divE, hdB]

/-- **C10, C11.** The pushes change nothing else: `push_H` leaves `E` and `J`, `push_E` leaves `H` and `J`. -/
theorem C11_push_frame (g : GridP K) (hg : GridOk g) (fac : K) (F : Flds K) :
    (push_H g fac F).E = F.E ∧ (push_H g fac F).J = F.J ∧
    (push_E g fac F).H = F.H ∧ (push_E g fac F).J = F.J := by
  have h := push_H_eq g hg fac F
  have e := push_E_eq g hg fac F
  exact ⟨h.1, h.2.1, e.1, e.2.1⟩

example : Region (K := ℚ) ⟨![1, 2, 2], ![true, false, false], ![1, 1, 1], 1⟩ 0 2 ![0, 3, 0] := by
  intro d; fin_cases d <;> simp

end Psc.Props
