import Verif.Spec.Patch
import Verif.Spec.Yee
import Mathlib.Tactic.Ring
import Mathlib.Tactic.Linarith
import Mathlib.Tactic.FinCases
import Mathlib.Tactic.LinearCombination
import Mathlib.Tactic.FieldSimp
import Mathlib.Data.List.Nodup
import Mathlib.Data.Fintype.Basic

namespace Psc.Fields

open Spec Yee

theorem mem_rng {lo hi i : ℤ} : i ∈ rng lo hi ↔ lo ≤ i ∧ i < hi := by
  simp only [rng, List.mem_map, List.mem_range]
  constructor
  · rintro ⟨n, hn, rfl⟩; omega
  · intro h; exact ⟨(i - lo).toNat, by omega, by omega⟩

theorem nodup_rng (lo hi : ℤ) : (rng lo hi).Nodup :=
  List.Nodup.map (fun a b h => by simpa using h) List.nodup_range

theorem mem_foreach3d {ldims : I3} {inv : Fin 3 → Bool} {l r i j k : ℤ} :
    (i, j, k) ∈ foreach3d ldims inv l r ↔
      ∀ d, (if inv d then 0 else -l) ≤ (![i, j, k] : I3) d ∧
        (![i, j, k] : I3) d < ldims d + if inv d then 0 else r := by
  simp only [foreach3d, List.mem_flatMap, List.mem_map, mem_rng, Prod.mk.injEq]
  constructor
  · rintro ⟨k', hk, j', hj, i', hi, rfl, rfl, rfl⟩ d
    fin_cases d
    · exact hi
    · exact hj
    · exact hk
  · intro h
    exact ⟨k, h 2, j, h 1, i, h 0, rfl, rfl, rfl⟩

theorem nodup_foreach3d (ldims : I3) (inv : Fin 3 → Bool) (l r : ℤ) :
    (foreach3d ldims inv l r).Nodup := by
  unfold foreach3d
  simp only
  rw [List.nodup_flatMap]
  refine ⟨fun k _ => ?_, ?_⟩
  · rw [List.nodup_flatMap]
    refine ⟨fun j _ => List.Nodup.map (fun a b h => by simpa using h) (nodup_rng _ _), ?_⟩
    refine List.Pairwise.imp ?_ (nodup_rng _ _)
    intro a b hab
    simp only [Function.onFun, List.disjoint_left, List.mem_map]
    rintro x ⟨i, _, rfl⟩ ⟨i', _, h⟩
    simp only [Prod.mk.injEq] at h
    exact hab h.2.1.symm
  · refine List.Pairwise.imp ?_ (nodup_rng _ _)
    intro a b hab
    simp only [Function.onFun, List.disjoint_left, List.mem_flatMap, List.mem_map]
    rintro x ⟨j, _, i, _, rfl⟩ ⟨j', _, i', _, h⟩
    simp only [Prod.mk.injEq] at h
    exact hab h.2.2.symm

/-- index vectors the code can address: 0 in invariant directions -/
def Addr {K : Type*} (g : GridP K) (n : I3) : Prop := ∀ d, g.inv d = true → n d = 0

section
variable {K : Type*} [Field K]

theorem ix_of {inv : Fin 3 → Bool} {d : Fin 3} {i : ℤ} (h : inv d = true → i = 0) : ix inv d i = i := by
  unfold ix; split_ifs with hh
  · exact (h hh).symm
  · rfl

theorem acc_shift (g : GridP K) (F : Comp K) (n : I3) (hn : Addr g n) :
    acc g.inv F (n 0) (n 1) (n 2) = cv F n := by
  unfold acc cv; rw [ix_of (hn 0), ix_of (hn 1), ix_of (hn 2)]

/-- forward difference in terms of the accessor -/
theorem cn_dF (g : GridP K) (F : Comp K) (dth : K) (d : Fin 3) (n : I3) (hn : Addr g n) :
    cn g.inv g.dx dth d * (acc g.inv F (shift n d 1 0) (shift n d 1 1) (shift n d 1 2) - cv F n) =
      dth * dF g.act g.dx (cv F) d n := by
  unfold cn dF GridP.act
  cases h : g.inv d
  · have hs : Addr g (shift n d 1) := by
      intro e he; unfold shift; split_ifs with hed
      · subst hed; rw [h] at he; exact absurd he (by simp)
      · exact hn e he
    rw [acc_shift g F _ hs]
    simp only [Bool.false_eq_true, if_false, Bool.not_false, if_true]
    ring
  · simp

/-- backward difference in terms of the accessor -/
theorem cn_dB (g : GridP K) (F : Comp K) (dth : K) (d : Fin 3) (n : I3) (hn : Addr g n) :
    cn g.inv g.dx dth d * (cv F n - acc g.inv F (shift n d (-1) 0) (shift n d (-1) 1) (shift n d (-1) 2)) =
      dth * dB g.act g.dx (cv F) d n := by
  unfold cn dB GridP.act
  cases h : g.inv d
  · have hs : Addr g (shift n d (-1)) := by
      intro e he; unfold shift; split_ifs with hed
      · subst hed; rw [h] at he; exact absurd he (by simp)
      · exact hn e he
    rw [acc_shift g F _ hs]
    simp only [Bool.false_eq_true, if_false, Bool.not_false, if_true]
    ring
  · simp

/-- `F += f` at index `n` -/
def bump (F : Comp K) (n : I3) (v : K) : Comp K :=
  fun a b c => if a = n 0 ∧ b = n 1 ∧ c = n 2 then F a b c + v else F a b c

theorem setAt_bump (g : GridP K) (F : Comp K) (n : I3) (hn : Addr g n) (v : K) :
    setAt g.inv F (n 0) (n 1) (n 2) (acc g.inv F (n 0) (n 1) (n 2) + v) = bump F n v := by
  rw [acc_shift g F n hn]
  unfold setAt bump cv
  rw [ix_of (hn 0), ix_of (hn 1), ix_of (hn 2)]
  funext a b c
  split_ifs with h
  · rw [h.1, h.2.1, h.2.2]
  · rfl

/-- index vector of a loop index -/
def vec (n : ℤ × ℤ × ℤ) : I3 := ![n.1, n.2.1, n.2.2]

/-- one `push_E` loop body in terms of the Yee curl -/
theorem pushE_body (g : GridP K) (dth : K) (F : Flds K) (n : ℤ × ℤ × ℤ) (hn : Addr g (vec n)) :
    pushE_z g.inv g.dx dth (pushE_y g.inv g.dx dth (pushE_x g.inv g.dx dth F n.1 n.2.1 n.2.2)
      n.1 n.2.1 n.2.2) n.1 n.2.1 n.2.2 =
    { F with E := fun d => bump (F.E d) (vec n) <|
                (dth * (curlH g.act g.dx (fun d => cv (F.H d)) d (vec n) - cv (F.J d) (vec n))) } := by
  obtain ⟨i, j, k⟩ := n
  have hb := fun F v => setAt_bump g F (vec (i, j, k)) hn v
  have ha := fun F => acc_shift g F (vec (i, j, k)) hn
  have hd := fun F d => cn_dB g F dth d (vec (i, j, k)) hn
  simp only [vec, Matrix.cons_val] at hb ha
  have h0 := fun F => hd F 0
  have h1 := fun F => hd F 1
  have h2 := fun F => hd F 2
  simp only [shift, vec, Matrix.cons_val, Fin.isValue, reduceIte, show (1 : Fin 3) ≠ 0 by decide,
    show (0 : Fin 3) ≠ 1 by decide, show (2 : Fin 3) ≠ 0 by decide, show (2 : Fin 3) ≠ 1 by decide,
    show (0 : Fin 3) ≠ 2 by decide, show (1 : Fin 3) ≠ 2 by decide, ← sub_eq_add_neg] at h0 h1 h2
  unfold pushE_z pushE_y pushE_x
  simp only [hb, setComp, Fin.isValue, reduceIte, show (1 : Fin 3) ≠ 0 by decide,
    show (0 : Fin 3) ≠ 1 by decide, show (2 : Fin 3) ≠ 0 by decide, show (2 : Fin 3) ≠ 1 by decide]
  simp only [ha, h0, h1, h2]
  congr 1
  funext d
  fin_cases d
  all_goals
    simp [setComp, curlH, vec, mul_sub, show (1 : Fin 3) + 2 = 0 by decide,
      show (1 : Fin 3) + 1 = 2 by decide, show (2 : Fin 3) + 2 = 1 by decide,
      show (2 : Fin 3) + 1 = 0 by decide, show (0 : Fin 3) ≠ 1 by decide, show (0 : Fin 3) ≠ 2 by decide,
      show (1 : Fin 3) ≠ 2 by decide, show (1 : Fin 3) ≠ 0 by decide]

/-- one `push_H` loop body in terms of the Yee curl -/
theorem pushH_body (g : GridP K) (dth : K) (F : Flds K) (n : ℤ × ℤ × ℤ) (hn : Addr g (vec n)) :
    pushH_z g.inv g.dx dth (pushH_y g.inv g.dx dth (pushH_x g.inv g.dx dth F n.1 n.2.1 n.2.2)
      n.1 n.2.1 n.2.2) n.1 n.2.1 n.2.2 =
    { F with H := fun d => bump (F.H d) (vec n) <|
                (-(dth * curlE g.act g.dx (fun d => cv (F.E d)) d (vec n))) } := by
  obtain ⟨i, j, k⟩ := n
  have hb := fun F v => setAt_bump g F (vec (i, j, k)) hn (-v)
  have ha := fun F => acc_shift g F (vec (i, j, k)) hn
  have hd := fun F d => cn_dF g F dth d (vec (i, j, k)) hn
  simp only [vec, Matrix.cons_val, ← sub_eq_add_neg] at hb ha
  have h0 := fun F => hd F 0
  have h1 := fun F => hd F 1
  have h2 := fun F => hd F 2
  simp only [shift, vec, Matrix.cons_val, Fin.isValue, reduceIte, show (1 : Fin 3) ≠ 0 by decide,
    show (0 : Fin 3) ≠ 1 by decide, show (2 : Fin 3) ≠ 0 by decide, show (2 : Fin 3) ≠ 1 by decide,
    show (0 : Fin 3) ≠ 2 by decide, show (1 : Fin 3) ≠ 2 by decide] at h0 h1 h2
  unfold pushH_z pushH_y pushH_x
  simp only [hb, setComp, Fin.isValue, reduceIte, show (1 : Fin 3) ≠ 0 by decide,
    show (0 : Fin 3) ≠ 1 by decide, show (2 : Fin 3) ≠ 0 by decide, show (2 : Fin 3) ≠ 1 by decide]
  simp only [ha, h0, h1, h2]
  congr 1
  funext d
  fin_cases d
  all_goals
    simp [setComp, curlE, vec, mul_sub, show (1 : Fin 3) + 2 = 0 by decide,
      show (1 : Fin 3) + 1 = 2 by decide, show (2 : Fin 3) + 2 = 1 by decide,
      show (2 : Fin 3) + 1 = 0 by decide, show (0 : Fin 3) ≠ 1 by decide, show (0 : Fin 3) ≠ 2 by decide,
      show (1 : Fin 3) ≠ 2 by decide, show (1 : Fin 3) ≠ 0 by decide]

/-- a sequence of increments at distinct indices -/
theorem foldl_bump (l : List (ℤ × ℤ × ℤ)) (hl : l.Nodup) (V : Fin 3 → Comp K)
    (f : Fin 3 → I3 → K) (d : Fin 3) (n : I3) :
    cv (l.foldl (fun V n => fun d => bump (V d) (vec n) (f d (vec n))) V d) n =
      cv (V d) n + if (n 0, n 1, n 2) ∈ l then f d n else 0 := by
  induction l generalizing V with
  | nil => simp
  | cons m l ih =>
    rw [List.nodup_cons] at hl
    rw [List.foldl_cons, ih hl.2]
    have vn : vec (n 0, n 1, n 2) = n := by funext e; fin_cases e <;> rfl
    by_cases hm : (n 0, n 1, n 2) = m
    · subst hm
      simp only [hl.1, if_false, List.mem_cons, true_or, if_true, add_zero, vn]
      simp [cv, bump]
    · have hb : cv (bump (V d) (vec m) (f d (vec m))) n = cv (V d) n := by
        unfold cv bump
        rw [if_neg]
        rintro ⟨h0, h1, h2⟩
        apply hm
        rw [h0, h1, h2]
        rfl
      rw [hb]
      simp only [List.mem_cons, hm, false_or]

/-- indices visited by the loops are addressable -/
theorem foreach_addr (g : GridP K) (hg : GridOk g) (l r : ℤ) (n : ℤ × ℤ × ℤ)
    (h : n ∈ foreach3d g.ldims g.inv l r) : Addr g (vec n) := by
  obtain ⟨i, j, k⟩ := n
  rw [mem_foreach3d] at h
  intro d hd
  have := h d
  simp only [hd, if_true, hg d hd] at this
  simp only [vec]
  omega

theorem region_iff (g : GridP K) (hg : GridOk g) (l r : ℤ) (n : I3) :
    (n 0, n 1, n 2) ∈ foreach3d g.ldims g.inv l r ↔ Region g l r n := by
  rw [mem_foreach3d]
  have e : (![n 0, n 1, n 2] : I3) = n := by funext d; fin_cases d <;> rfl
  rw [e]
  unfold Region
  constructor
  · intro h d
    have := h d
    cases hd : g.inv d
    · simp only [hd, Bool.false_eq_true, if_false] at this ⊢; exact this
    · have := hg d hd; simp only [hd, if_true] at *; omega
  · intro h d
    have := h d
    cases hd : g.inv d
    · simp only [hd, Bool.false_eq_true, if_false] at this ⊢; exact this
    · have := hg d hd; simp only [hd, if_true] at *; omega

theorem push_E_aux (g : GridP K) (dth : K) (l : List (ℤ × ℤ × ℤ)) (ha : ∀ n ∈ l, Addr g (vec n))
    (F : Flds K) :
    l.foldl (fun F n =>
      pushE_z g.inv g.dx dth (pushE_y g.inv g.dx dth (pushE_x g.inv g.dx dth F n.1 n.2.1 n.2.2)
        n.1 n.2.1 n.2.2) n.1 n.2.1 n.2.2) F =
    { F with E := l.foldl (fun V n => fun d => bump (V d) (vec n)
        (dth * (curlH g.act g.dx (fun d => cv (F.H d)) d (vec n) - cv (F.J d) (vec n)))) F.E } := by
  induction l generalizing F with
  | nil => rfl
  | cons n l ih =>
    rw [List.foldl_cons, List.foldl_cons, pushE_body g dth F n (ha n List.mem_cons_self),
      ih (fun m hm => ha m (List.mem_cons_of_mem _ hm))]

theorem push_H_aux (g : GridP K) (dth : K) (l : List (ℤ × ℤ × ℤ)) (ha : ∀ n ∈ l, Addr g (vec n))
    (F : Flds K) :
    l.foldl (fun F n =>
      pushH_z g.inv g.dx dth (pushH_y g.inv g.dx dth (pushH_x g.inv g.dx dth F n.1 n.2.1 n.2.2)
        n.1 n.2.1 n.2.2) n.1 n.2.1 n.2.2) F =
    { F with H := l.foldl (fun V n => fun d => bump (V d) (vec n)
        (-(dth * curlE g.act g.dx (fun d => cv (F.E d)) d (vec n)))) F.H } := by
  induction l generalizing F with
  | nil => rfl
  | cons n l ih =>
    rw [List.foldl_cons, List.foldl_cons, pushH_body g dth F n (ha n List.mem_cons_self),
      ih (fun m hm => ha m (List.mem_cons_of_mem _ hm))]

/-- `push_E` on one patch: Ampère on the region, nothing elsewhere; `H`, `J` untouched. -/
theorem push_E_eq (g : GridP K) (hg : GridOk g) (fac : K) (F : Flds K) :
    (push_E g fac F).H = F.H ∧ (push_E g fac F).J = F.J ∧
    ∀ d n, cv ((push_E g fac F).E d) n = cv (F.E d) n + by
      classical exact if Region g 1 2 n then (fac * g.dt) *
        (curlH g.act g.dx (fun d => cv (F.H d)) d n - cv (F.J d) n) else 0 := by
  classical
  unfold push_E
  simp only
  rw [push_E_aux g _ _ (foreach_addr g hg 1 2)]
  refine ⟨rfl, rfl, fun d n => ?_⟩
  simp only
  rw [foldl_bump _ (nodup_foreach3d _ _ _ _) F.E
    (fun d n => (fac * g.dt) * (curlH g.act g.dx (fun d => cv (F.H d)) d n - cv (F.J d) n))]
  simp only [region_iff g hg]

/-- `push_H` on one patch: Faraday on the region, nothing elsewhere; `E`, `J` untouched. -/
theorem push_H_eq (g : GridP K) (hg : GridOk g) (fac : K) (F : Flds K) :
    (push_H g fac F).E = F.E ∧ (push_H g fac F).J = F.J ∧
    ∀ d n, cv ((push_H g fac F).H d) n = cv (F.H d) n + by
      classical exact if Region g 2 1 n then -((fac * g.dt) *
        curlE g.act g.dx (fun d => cv (F.E d)) d n) else 0 := by
  classical
  unfold push_H
  simp only
  rw [push_H_aux g _ _ (foreach_addr g hg 2 1)]
  refine ⟨rfl, rfl, fun d n => ?_⟩
  simp only
  rw [foldl_bump _ (nodup_foreach3d _ _ _ _) F.H
    (fun d n => -((fac * g.dt) * curlE g.act g.dx (fun d => cv (F.E d)) d n))]
  simp only [region_iff g hg]

theorem shift_comm (n : I3) (a b : Fin 3) (s t : ℤ) : shift (shift n a s) b t = shift (shift n b t) a s := by
  funext e; simp only [shift]; split_ifs <;> ring

/-- div curl = 0 (faces → cells) -/
theorem divH_curlE (act : Fin 3 → Bool) (dx : R3 K) (E : VF K) (n : I3) :
    divH act dx (curlE act dx E) n = 0 := by
  unfold divH curlE dF
  simp only [Fin.isValue, show (0 : Fin 3) + 2 = 2 by decide, show (0 : Fin 3) + 1 = 1 by decide,
    show (1 : Fin 3) + 2 = 0 by decide, show (1 : Fin 3) + 1 = 2 by decide,
    show (2 : Fin 3) + 2 = 1 by decide, show (2 : Fin 3) + 1 = 0 by decide]
  rw [shift_comm n 1 0, shift_comm n 2 0, shift_comm n 2 1]
  cases act 0 <;> cases act 1 <;> cases act 2 <;> simp <;> ring

/-- div curl = 0 (edges → nodes) -/
theorem divE_curlH (act : Fin 3 → Bool) (dx : R3 K) (H : VF K) (n : I3) :
    divE act dx (curlH act dx H) n = 0 := by
  unfold divE curlH dB
  simp only [Fin.isValue, show (0 : Fin 3) + 2 = 2 by decide, show (0 : Fin 3) + 1 = 1 by decide,
    show (1 : Fin 3) + 2 = 0 by decide, show (1 : Fin 3) + 1 = 2 by decide,
    show (2 : Fin 3) + 2 = 1 by decide, show (2 : Fin 3) + 1 = 0 by decide]
  rw [shift_comm n 1 0, shift_comm n 2 0, shift_comm n 2 1]
  cases act 0 <;> cases act 1 <;> cases act 2 <;> simp <;> ring

end

end Psc.Fields
