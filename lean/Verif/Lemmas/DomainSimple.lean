import Verif.Spec.DomainSimple
import Mathlib.Tactic.Linarith
import Mathlib.Tactic.Ring
import Mathlib.Data.Finset.Max
import Mathlib.Algebra.Order.BigOperators.Group.Finset

/-!
# Lemmas for domains with one patch per process
-/

namespace Psc.DomainSimple

variable {size : ℤ} {np : I3} {ldims : ℤ → I3}

/-- the place is on the process grid -/
def InGrid (np p : I3) : Prop := ∀ d, 0 ≤ p d ∧ p d < np d

theorem proc2rank_in {p : I3} (h : InGrid np p) : proc2rank np p = (p 2 * np 1 + p 1) * np 0 + p 0 := by
  unfold proc2rank
  rw [if_neg]
  rintro ⟨d, hd⟩
  have := h d
  omega

theorem proc2rank_range (hL : Layout size np) {p : I3} (h : InGrid np p) : 0 ≤ proc2rank np p ∧ proc2rank np p < size := by
  rw [proc2rank_in h, ← hL.size]
  have h0 := h 0; have h1 := h 1; have h2 := h 2
  have p0 := hL.pos 0; have p1 := hL.pos 1; have p2 := hL.pos 2
  generalize p 0 = a at *; generalize p 1 = b at *; generalize p 2 = c at *
  generalize np 0 = x at *; generalize np 1 = y at *; generalize np 2 = z at *
  have hc : 0 ≤ c * y := mul_nonneg h2.1 p1.le
  have hc' : c * y + b + 1 ≤ z * y := by nlinarith
  constructor
  · have := mul_nonneg (show 0 ≤ c * y + b by omega) p0.le
    omega
  · have := mul_le_mul_of_nonneg_right hc' p0.le
    nlinarith

theorem rank2proc_in (hL : Layout size np) {r : ℤ} (_hr : 0 ≤ r ∧ r < size) : InGrid np (rank2proc np r) := by
  intro d
  have := hL.pos
  match d with
  | 0 => exact ⟨Int.emod_nonneg _ (this 0).ne', Int.emod_lt_of_pos _ (this 0)⟩
  | 1 => exact ⟨Int.emod_nonneg _ (this 1).ne', Int.emod_lt_of_pos _ (this 1)⟩
  | 2 => exact ⟨Int.emod_nonneg _ (this 2).ne', Int.emod_lt_of_pos _ (this 2)⟩

theorem rank2proc_proc2rank (hL : Layout size np) {p : I3} (h : InGrid np p) : rank2proc np (proc2rank np p) = p := by
  rw [proc2rank_in h]
  have h0 := h 0; have h1 := h 1; have h2 := h 2
  have p0 := hL.pos 0; have p1 := hL.pos 1
  have e1 : ((p 2 * np 1 + p 1) * np 0 + p 0) / np 0 = p 2 * np 1 + p 1 := by
    rw [add_comm, Int.add_mul_ediv_right _ _ p0.ne', Int.ediv_eq_zero_of_lt h0.1 h0.2, zero_add]
  have e2 : (p 2 * np 1 + p 1) / np 1 = p 2 := by
    rw [add_comm, Int.add_mul_ediv_right _ _ p1.ne', Int.ediv_eq_zero_of_lt h1.1 h1.2, zero_add]
  funext d
  match d with
  | 0 =>
    show ((p 2 * np 1 + p 1) * np 0 + p 0) % np 0 = p 0
    rw [add_comm, Int.add_mul_emod_self_right, Int.emod_eq_of_lt h0.1 h0.2]
  | 1 =>
    show ((p 2 * np 1 + p 1) * np 0 + p 0) / np 0 % np 1 = p 1
    rw [e1, add_comm, Int.add_mul_emod_self_right, Int.emod_eq_of_lt h1.1 h1.2]
  | 2 =>
    show ((p 2 * np 1 + p 1) * np 0 + p 0) / np 0 / np 1 % np 2 = p 2
    rw [e1, e2, Int.emod_eq_of_lt h2.1 h2.2]

theorem proc2rank_rank2proc (hL : Layout size np) {r : ℤ} (hr : 0 ≤ r ∧ r < size) : proc2rank np (rank2proc np r) = r := by
  rw [proc2rank_in (rank2proc_in hL hr)]
  have p0 := hL.pos 0; have p1 := hL.pos 1; have p2 := hL.pos 2
  show (r / np 0 / np 1 % np 2 * np 1 + r / np 0 % np 1) * np 0 + r % np 0 = r
  have e2 : r / np 0 / np 1 % np 2 = r / np 0 / np 1 := by
    refine Int.emod_eq_of_lt (Int.ediv_nonneg (Int.ediv_nonneg hr.1 p0.le) p1.le) ?_
    rw [Int.ediv_lt_iff_lt_mul p1, Int.ediv_lt_iff_lt_mul p0]
    have := hr.2
    rw [← hL.size] at this
    nlinarith
  rw [e2]
  have a := Int.emod_add_mul_ediv r (np 0)
  have b := Int.emod_add_mul_ediv (r / np 0) (np 1)
  generalize r / np 0 / np 1 = u at *
  generalize r / np 0 % np 1 = v at *
  generalize r / np 0 = w at *
  generalize r % np 0 = t at *
  rw [← a, ← b]
  ring

theorem rank2proc_inj (hL : Layout size np) {r r' : ℤ} (hr : 0 ≤ r ∧ r < size) (hr' : 0 ≤ r' ∧ r' < size)
    (h : rank2proc np r = rank2proc np r') : r = r' := by
  rw [← proc2rank_rank2proc hL hr, h, proc2rank_rank2proc hL hr']

/-- rank `r` is the right neighbour of rank `l` in direction `d` -/
structure Adj (size : ℤ) (np : I3) (l r : ℤ) (d : Fin 3) : Prop where
  left : 0 ≤ l ∧ l < size
  right : 0 ≤ r ∧ r < size
  proc : rank2proc np r = Function.update (rank2proc np l) d (rank2proc np l d + 1)

theorem Adj.of_right (hL : Layout size np) {r : ℤ} {d : Fin 3} (hr : 0 ≤ r ∧ r < size) (h : rank2proc np r d > 0) :
    Adj size np (nei np r d (-1)) r d := by
  have hg := rank2proc_in hL hr
  have hp : (fun e => rank2proc np r e + dirOf d (-1) e) = Function.update (rank2proc np r) d (rank2proc np r d - 1) := by
    funext e
    by_cases he : e = d
    · subst he; simp [dirOf]; ring
    · simp [dirOf, he]
  have hin : InGrid np (Function.update (rank2proc np r) d (rank2proc np r d - 1)) := by
    intro e
    by_cases he : e = d
    · subst he; have := hg e; simp; omega
    · simp [he]; exact hg e
  have e1 : rank2proc np (nei np r d (-1)) = Function.update (rank2proc np r) d (rank2proc np r d - 1) := by
    unfold nei get_neighbor_rank
    rw [hp, rank2proc_proc2rank hL hin]
  refine ⟨?_, hr, ?_⟩
  · unfold nei get_neighbor_rank
    rw [hp]
    exact proc2rank_range hL hin
  · rw [e1]
    simp

theorem Adj.of_left (hL : Layout size np) {l : ℤ} {d : Fin 3} (hl : 0 ≤ l ∧ l < size) (h : rank2proc np l d < np d - 1) :
    Adj size np l (nei np l d 1) d := by
  have hg := rank2proc_in hL hl
  have hp : (fun e => rank2proc np l e + dirOf d 1 e) = Function.update (rank2proc np l) d (rank2proc np l d + 1) := by
    funext e
    by_cases he : e = d
    · subst he; simp [dirOf]
    · simp [dirOf, he]
  have hin : InGrid np (Function.update (rank2proc np l) d (rank2proc np l d + 1)) := by
    intro e
    by_cases he : e = d
    · subst he; have := hg e; simp; omega
    · simp [he]; exact hg e
  refine ⟨hl, ?_, ?_⟩
  · unfold nei get_neighbor_rank
    rw [hp]
    exact proc2rank_range hL hin
  · unfold nei get_neighbor_rank
    rw [hp, rank2proc_proc2rank hL hin]

theorem Adj.at {l r : ℤ} {d : Fin 3} (h : Adj size np l r d) : rank2proc np r d = rank2proc np l d + 1 := by
  rw [h.proc]; simp

theorem Adj.pos (hL : Layout size np) {l r : ℤ} {d : Fin 3} (h : Adj size np l r d) : rank2proc np r d > 0 := by
  have := h.at
  have := rank2proc_in hL h.left d
  omega

theorem Adj.lt (hL : Layout size np) {l r : ℤ} {d : Fin 3} (h : Adj size np l r d) : rank2proc np l d < np d - 1 := by
  have := h.at
  have := rank2proc_in hL h.right d
  omega

theorem Adj.left_unique (hL : Layout size np) {l l' r : ℤ} {d : Fin 3} (h : Adj size np l r d) (h' : Adj size np l' r d) : l = l' := by
  refine rank2proc_inj hL h.left h'.left ?_
  have a := h.proc
  have b := h'.proc
  rw [a] at b
  funext e
  have := congrFun b e
  by_cases he : e = d
  · subst he; simp at this; exact this
  · simpa [he] using this

theorem Adj.right_unique (hL : Layout size np) {l r r' : ℤ} {d : Fin 3} (h : Adj size np l r d) (h' : Adj size np l r' d) : r = r' :=
  rank2proc_inj hL h.right h'.right (h.proc.trans h'.proc.symm)

theorem Adj.nei_left (hL : Layout size np) {l r : ℤ} {d : Fin 3} (h : Adj size np l r d) : nei np r d (-1) = l :=
  (Adj.of_right hL h.right (h.pos hL)).left_unique hL h

theorem Adj.nei_right (hL : Layout size np) {l r : ℤ} {d : Fin 3} (h : Adj size np l r d) : nei np l d 1 = r :=
  (Adj.of_left hL h.left (h.lt hL)).right_unique hL h

theorem Adj.ne {l r : ℤ} {d : Fin 3} (h : Adj size np l r d) : l ≠ r := by
  rintro rfl
  have := h.at
  omega

theorem before_zero {r : ℤ} {d : Fin 3} (h : ¬ rank2proc np r d > 0) : before np ldims r d = 0 := by
  unfold before
  rw [Finset.Ico_eq_empty (by omega), Finset.sum_empty]

theorem before_adj (hL : Layout size np) {l r : ℤ} {d : Fin 3} (h : Adj size np l r d) :
    before np ldims r d = before np ldims l d + ldims l d := by
  have h0 := (rank2proc_in hL h.left d).1
  unfold before
  have e : Finset.Ico 0 (rank2proc np l d + 1) = insert (rank2proc np l d) (Finset.Ico 0 (rank2proc np l d)) := by
    ext j
    simp only [Finset.mem_Ico, Finset.mem_insert]
    omega
  rw [h.at, e, Finset.sum_insert (by simp), add_comm]
  congr 1
  · refine Finset.sum_congr rfl fun j _ => ?_
    rw [h.proc, Function.update_idem]
  · rw [h.proc, Function.update_idem, Function.update_eq_self, proc2rank_rank2proc hL h.left]

theorem key_ne {l r l' r' : ℤ} {d d' : Fin 3} (h : l ≠ l' ∨ r ≠ r' ∨ d ≠ d') :
    (l, r, TAG_SCAN_OFF + ((d : ℕ) : ℤ)) ≠ (l', r', TAG_SCAN_OFF + ((d' : ℕ) : ℤ)) := by
  intro e
  simp only [Prod.mk.injEq] at e
  obtain ⟨e1, e2, e3⟩ := e
  have : d = d' := by
    apply Fin.ext
    omega
  rcases h with h | h | h
  · exact h e1
  · exact h e2
  · exact h this

/-- what holds in all reachable states -/
structure Inv (size : ℤ) (np : I3) (ldims : ℤ → I3) (s : St) : Prop where
  le : ∀ r, s.pc r ≤ 6
  off : ∀ r, 0 ≤ r ∧ r < size → ∀ d : Fin 3, 2 * (d : ℕ) < s.pc r → s.off r d = before np ldims r d
  wait : ∀ l r d, Adj size np l r d → s.pc l ≤ 2 * (d : ℕ) + 1 → s.pc r ≤ 2 * (d : ℕ) ∧ s.chan (l, r, TAG_SCAN_OFF + d) = []
  fly : ∀ l r d, Adj size np l r d → 2 * (d : ℕ) + 1 < s.pc l → s.pc r ≤ 2 * (d : ℕ) →
    s.chan (l, r, TAG_SCAN_OFF + d) = [before np ldims r d]
  gone : ∀ l r d, Adj size np l r d → 2 * (d : ℕ) + 1 < s.pc l → 2 * (d : ℕ) < s.pc r → s.chan (l, r, TAG_SCAN_OFF + d) = []
  only : ∀ k, s.chan k ≠ [] → ∃ l r d, Adj size np l r d ∧ k = (l, r, TAG_SCAN_OFF + ((d : ℕ) : ℤ))

theorem Inv.init : Inv size np ldims init :=
  ⟨fun _ => by simp [DomainSimple.init], fun _ _ d h => by simp [DomainSimple.init] at h, fun _ _ _ _ _ => by simp [DomainSimple.init],
    fun _ _ d _ h => by simp [DomainSimple.init] at h, fun _ _ d _ h => by simp [DomainSimple.init] at h,
    fun _ h => by simp [DomainSimple.init] at h⟩

/-- a receive, or the first on a line -/
theorem Inv.got (hL : Layout size np) {s : St} (I : Inv size np ldims s) {r : ℤ} {d : Fin 3} (hpc : s.pc r = 2 * d)
    (c : ℤ × ℤ × ℤ → List ℤ)
    (h1 : ∀ l r' d', Adj size np l r' d' → (r' ≠ r ∨ d' ≠ d) → c (l, r', TAG_SCAN_OFF + d') = s.chan (l, r', TAG_SCAN_OFF + d'))
    (h2 : ∀ l, Adj size np l r d → 2 * (d : ℕ) + 1 < s.pc l ∧ c (l, r, TAG_SCAN_OFF + d) = [])
    (h3 : ∀ k, c k ≠ [] → s.chan k ≠ []) :
    Inv size np ldims { s.got r d (before np ldims r d) with chan := c } := by
  have hd := d.2
  have pcr : Function.update s.pc r (s.pc r + 1) r = 2 * (d : ℕ) + 1 := by simp [hpc]
  have pcn : ∀ x, x ≠ r → Function.update s.pc r (s.pc r + 1) x = s.pc x := fun x hx => by simp [hx]
  refine ⟨fun x => ?_, fun x hx e he => ?_, fun l x e ha hp => ?_, fun l x e ha hp hq => ?_, fun l x e ha hp hq => ?_,
    fun k hk => I.only k (h3 k hk)⟩
  · show Function.update s.pc r (s.pc r + 1) x ≤ 6
    by_cases hx : x = r
    · subst hx; rw [pcr]; omega
    · rw [pcn x hx]; exact I.le x
  · change 2 * (e : ℕ) < Function.update s.pc r (s.pc r + 1) x at he
    show Function.update s.off r (Function.update (s.off r) d (before np ldims r d)) x e = _
    by_cases hxr : x = r
    · subst hxr
      rw [pcr] at he
      rw [Function.update_self]
      by_cases hed : e = d
      · subst hed; rw [Function.update_self]
      · rw [Function.update_of_ne hed]
        have : (e : ℕ) ≠ d := fun h => hed (Fin.ext h)
        exact I.off x hx e (by omega)
    · rw [pcn x hxr] at he
      rw [Function.update_of_ne hxr]
      exact I.off x hx e he
  · change Function.update s.pc r (s.pc r + 1) l ≤ _ at hp
    show Function.update s.pc r (s.pc r + 1) x ≤ _ ∧ c _ = []
    have hlx := ha.ne
    by_cases hxr : x = r
    · subst hxr
      rw [pcn l hlx] at hp
      by_cases hed : e = d
      · subst hed
        have := (h2 l ha).1
        omega
      · have := I.wait l x e ha hp
        have hne : (e : ℕ) ≠ d := fun h => hed (Fin.ext h)
        rw [pcr, h1 l x e ha (Or.inr hed)]
        exact ⟨by omega, this.2⟩
    · rw [pcn x hxr, h1 l x e ha (Or.inl hxr)]
      by_cases hlr : l = r
      · subst hlr
        rw [pcr] at hp
        exact I.wait l x e ha (by omega)
      · rw [pcn l hlr] at hp
        exact I.wait l x e ha hp
  · change _ < Function.update s.pc r (s.pc r + 1) l at hp
    change Function.update s.pc r (s.pc r + 1) x ≤ _ at hq
    show c _ = _
    have hlx := ha.ne
    by_cases hxr : x = r
    · subst hxr
      rw [pcn l hlx] at hp
      rw [pcr] at hq
      have hed : e ≠ d := by rintro rfl; omega
      rw [h1 l x e ha (Or.inr hed)]
      exact I.fly l x e ha hp (by omega)
    · rw [pcn x hxr] at hq
      rw [h1 l x e ha (Or.inl hxr)]
      by_cases hlr : l = r
      · subst hlr
        rw [pcr] at hp
        exact I.fly l x e ha (by omega) hq
      · rw [pcn l hlr] at hp
        exact I.fly l x e ha hp hq
  · change _ < Function.update s.pc r (s.pc r + 1) l at hp
    change _ < Function.update s.pc r (s.pc r + 1) x at hq
    show c _ = _
    have hlx := ha.ne
    by_cases hxr : x = r
    · subst hxr
      rw [pcn l hlx] at hp
      rw [pcr] at hq
      by_cases hed : e = d
      · subst hed
        exact (h2 l ha).2
      · have hne : (e : ℕ) ≠ d := fun h => hed (Fin.ext h)
        rw [h1 l x e ha (Or.inr hed)]
        exact I.gone l x e ha hp (by omega)
    · rw [pcn x hxr] at hq
      rw [h1 l x e ha (Or.inl hxr)]
      by_cases hlr : l = r
      · subst hlr
        rw [pcr] at hp
        exact I.gone l x e ha (by omega) hq
      · rw [pcn l hlr] at hp
        exact I.gone l x e ha hp hq

/-- a send, or the last on a line -/
theorem Inv.sent (hL : Layout size np) {s : St} (I : Inv size np ldims s) {r : ℤ} {d : Fin 3} (hpc : s.pc r = 2 * d + 1)
    (c : ℤ × ℤ × ℤ → List ℤ)
    (h1 : ∀ l r' d', Adj size np l r' d' → (l ≠ r ∨ d' ≠ d) → c (l, r', TAG_SCAN_OFF + d') = s.chan (l, r', TAG_SCAN_OFF + d'))
    (h2 : ∀ r', Adj size np r r' d → c (r, r', TAG_SCAN_OFF + d) = [before np ldims r' d])
    (h3 : ∀ k, c k ≠ [] → s.chan k ≠ [] ∨ ∃ l r d, Adj size np l r d ∧ k = (l, r, TAG_SCAN_OFF + ((d : ℕ) : ℤ))) :
    Inv size np ldims { s.sent r with chan := c } := by
  have hd := d.2
  have pcr : Function.update s.pc r (s.pc r + 1) r = 2 * (d : ℕ) + 2 := by simp [hpc]
  have pcn : ∀ x, x ≠ r → Function.update s.pc r (s.pc r + 1) x = s.pc x := fun x hx => by simp [hx]
  refine ⟨fun x => ?_, fun x hx e he => ?_, fun l x e ha hp => ?_, fun l x e ha hp hq => ?_, fun l x e ha hp hq => ?_,
    fun k hk => (h3 k hk).elim (I.only k) id⟩
  · show Function.update s.pc r (s.pc r + 1) x ≤ 6
    by_cases hx : x = r
    · subst hx; rw [pcr]; omega
    · rw [pcn x hx]; exact I.le x
  · change 2 * (e : ℕ) < Function.update s.pc r (s.pc r + 1) x at he
    show s.off x e = _
    by_cases hxr : x = r
    · subst hxr
      rw [pcr] at he
      exact I.off x hx e (by omega)
    · rw [pcn x hxr] at he
      exact I.off x hx e he
  · change Function.update s.pc r (s.pc r + 1) l ≤ _ at hp
    show Function.update s.pc r (s.pc r + 1) x ≤ _ ∧ c _ = []
    have hlx := ha.ne
    by_cases hlr : l = r
    · subst hlr
      rw [pcr] at hp
      have hed : e ≠ d := by rintro rfl; omega
      rw [pcn x hlx.symm, h1 l x e ha (Or.inr hed)]
      exact I.wait l x e ha (by omega)
    · rw [pcn l hlr] at hp
      rw [h1 l x e ha (Or.inl hlr)]
      have hw := I.wait l x e ha hp
      refine ⟨?_, hw.2⟩
      by_cases hxr : x = r
      · subst hxr
        rw [pcr]
        omega
      · rw [pcn x hxr]; exact hw.1
  · change _ < Function.update s.pc r (s.pc r + 1) l at hp
    change Function.update s.pc r (s.pc r + 1) x ≤ _ at hq
    show c _ = _
    have hlx := ha.ne
    by_cases hlr : l = r
    · subst hlr
      rw [pcr] at hp
      rw [pcn x hlx.symm] at hq
      by_cases hed : e = d
      · subst hed
        exact h2 x ha
      · have hne : (e : ℕ) ≠ d := fun h => hed (Fin.ext h)
        rw [h1 l x e ha (Or.inr hed)]
        exact I.fly l x e ha (by omega) hq
    · rw [pcn l hlr] at hp
      rw [h1 l x e ha (Or.inl hlr)]
      refine I.fly l x e ha hp ?_
      by_cases hxr : x = r
      · subst hxr
        rw [pcr] at hq
        omega
      · rwa [pcn x hxr] at hq
  · change _ < Function.update s.pc r (s.pc r + 1) l at hp
    change _ < Function.update s.pc r (s.pc r + 1) x at hq
    show c _ = _
    have hlx := ha.ne
    by_cases hlr : l = r
    · subst hlr
      rw [pcr] at hp
      rw [pcn x hlx.symm] at hq
      by_cases hed : e = d
      · subst hed
        have := (I.wait l x e ha (by omega)).1
        omega
      · have hne : (e : ℕ) ≠ d := fun h => hed (Fin.ext h)
        rw [h1 l x e ha (Or.inr hed)]
        exact I.gone l x e ha (by omega) hq
    · rw [pcn l hlr] at hp
      rw [h1 l x e ha (Or.inl hlr)]
      refine I.gone l x e ha hp ?_
      by_cases hxr : x = r
      · subst hxr
        rw [pcr] at hq
        omega
      · rwa [pcn x hxr] at hq

theorem Inv.send (hL : Layout size np) {s : St} (I : Inv size np ldims s) {r : ℤ} {d : Fin 3} (hr : 0 ≤ r ∧ r < size)
    (hpc : s.pc r = 2 * d + 1) (h : rank2proc np r d < np d - 1) :
    Inv size np ldims
      { s.sent r with
        chan := Function.update s.chan (r, nei np r d 1, TAG_SCAN_OFF + d)
          (s.chan (r, nei np r d 1, TAG_SCAN_OFF + d) ++ [s.off r d + ldims r d]) } := by
  have ha := Adj.of_left hL hr h
  refine I.sent hL hpc _ (fun l r' d' _ hne => ?_) (fun r' ha' => ?_) (fun k hk => ?_)
  · exact Function.update_of_ne (key_ne (hne.elim Or.inl fun h => Or.inr (Or.inr h))) _ _
  · rw [ha'.nei_right hL, Function.update_self, (I.wait r r' d ha' (by omega)).2, before_adj hL ha', I.off r hr d (by omega)]
    rfl
  · by_cases hk' : k = (r, nei np r d 1, TAG_SCAN_OFF + d)
    · exact Or.inr ⟨_, _, _, ha, hk'⟩
    · rw [Function.update_of_ne hk'] at hk
      exact Or.inl hk

theorem Inv.recv (hL : Layout size np) {s : St} (I : Inv size np ldims s) {r : ℤ} {d : Fin 3} {v : ℤ} {l : List ℤ}
    (hr : 0 ≤ r ∧ r < size) (hpc : s.pc r = 2 * d) (h : rank2proc np r d > 0)
    (hv : s.chan (nei np r d (-1), r, TAG_SCAN_OFF + d) = v :: l) :
    Inv size np ldims { s.got r d v with chan := Function.update s.chan (nei np r d (-1), r, TAG_SCAN_OFF + d) l } := by
  have ha := Adj.of_right hL hr h
  have hpl : 2 * (d : ℕ) + 1 < s.pc (nei np r d (-1)) := by
    by_contra hn
    have := (I.wait _ _ _ ha (by omega)).2
    rw [hv] at this
    simp at this
  have hf := I.fly _ _ _ ha hpl (by omega)
  rw [hv] at hf
  simp only [List.cons.injEq] at hf
  obtain ⟨rfl, rfl⟩ := hf
  refine I.got hL hpc _ (fun l r' d' _ hne => ?_) (fun l ha' => ?_) (fun k hk => ?_)
  · exact Function.update_of_ne (key_ne (Or.inr hne)) _ _
  · rw [ha'.nei_left hL] at hpl ⊢
    exact ⟨hpl, Function.update_self ..⟩
  · by_cases hk' : k = (nei np r d (-1), r, TAG_SCAN_OFF + d)
    · subst hk'
      simp at hk
    · rwa [Function.update_of_ne hk'] at hk

theorem Inv.step (hL : Layout size np) {b : Bool} {s s' : St} (I : Inv size np ldims s) (h : Step size np ldims b s s') :
    Inv size np ldims s' := by
  cases h with
  | first r d hr hpc h =>
    have := I.got hL hpc s.chan (fun _ _ _ _ _ => rfl) (fun l ha => absurd (ha.pos hL) h) (fun _ h => h)
    rwa [before_zero h] at this
  | recv r d v l hr hpc h hv => exact I.recv hL hr hpc h hv
  | last r d hr hpc h =>
    exact I.sent hL hpc s.chan (fun _ _ _ _ _ => rfl) (fun l ha => absurd (ha.lt hL) h) (fun _ h => Or.inl h)
  | send r d hb hr hpc h => exact I.send hL hr hpc h
  | hand r r' d hr hpc h hr' h0 hpc' h' hn hc =>
    have I1 := I.send hL hr hpc h
    rw [hr', hc, List.nil_append] at I1
    have hne : r' ≠ r := by rintro rfl; omega
    have I2 := I1.recv (r := r') (d := d) (v := s.off r d + ldims r d) (l := []) hL h0
      (by show Function.update s.pc r (s.pc r + 1) r' = _; rw [Function.update_of_ne hne, hpc']) h'
      (by rw [hn]; exact Function.update_self ..)
    rw [hn] at I2
    convert I2 using 1
    unfold St.got St.sent
    congr 1
    · show Function.update (Function.update s.pc r' (s.pc r' + 1)) r (Function.update s.pc r' (s.pc r' + 1) r + 1) =
        Function.update (Function.update s.pc r (s.pc r + 1)) r' (Function.update s.pc r (s.pc r + 1) r' + 1)
      rw [Function.update_of_ne hne, Function.update_of_ne hne.symm, Function.update_comm hne]
    · show s.chan = Function.update (Function.update s.chan _ _) _ _
      rw [Function.update_idem, ← hc, Function.update_eq_self]

theorem Reachable.inv (hL : Layout size np) {s : St} (h : Reachable size np ldims s) : Inv size np ldims s := by
  induction h with
  | refl => exact Inv.init
  | tail _ h I => exact I.step hL h

theorem Step.mono {b : Bool} {s s' : St} (h : Step size np ldims false s s') : Step size np ldims b s s' := by
  cases h with
  | first r d hr hpc h => exact .first s r d hr hpc h
  | recv r d v l hr hpc h hv => exact .recv s r d v l hr hpc h hv
  | last r d hr hpc h => exact .last s r d hr hpc h
  | send r d hb hr hpc h => exact absurd hb (by simp)
  | hand r r' d hr hpc h hr' h0 hpc' h' hn hc => exact .hand s r r' d hr hpc h hr' h0 hpc' h' hn hc

/-- some process before a receive, all others not behind: one of them can go on -/
theorem progress_recv (hL : Layout size np) {s : St} (I : Inv size np ldims s) (d : Fin 3)
    (hmin : ∀ x, 0 ≤ x ∧ x < size → 2 * (d : ℕ) ≤ s.pc x) (k : ℕ) :
    ∀ r, 0 ≤ r ∧ r < size → s.pc r = 2 * d → rank2proc np r d = k → ∃ s', Step size np ldims false s s' := by
  induction k with
  | zero => exact fun r hr hpc h => ⟨_, .first s r d hr hpc (by omega)⟩
  | succ k ih =>
    intro r hr hpc h
    have h' : rank2proc np r d > 0 := by omega
    have ha := Adj.of_right hL hr h'
    have hl := hmin _ ha.left
    rcases Nat.lt_or_ge (2 * (d : ℕ) + 1) (s.pc (nei np r d (-1))) with h1 | h1
    · exact ⟨_, .recv s r d _ _ hr hpc h' (I.fly _ _ _ ha h1 (by omega))⟩
    · rcases Nat.lt_or_ge (2 * (d : ℕ)) (s.pc (nei np r d (-1))) with h2 | h2
      · exact ⟨_, .hand s (nei np r d (-1)) r d ha.left (by omega) (ha.lt hL) (ha.nei_right hL) hr hpc h' rfl (I.wait _ _ _ ha h1).2⟩
      · have := ha.at
        exact ih _ ha.left (by omega) (by omega)

theorem Inv.progress (hL : Layout size np) {s : St} (I : Inv size np ldims s) (h : ¬ s.done size) :
    ∃ s', Step size np ldims false s s' := by
  unfold St.done at h
  push Not at h
  obtain ⟨x, hx, hpx⟩ := h
  obtain ⟨r, hr, hmin⟩ := Finset.exists_min_image (Finset.Ico 0 size) s.pc ⟨x, Finset.mem_Ico.2 hx⟩
  rw [Finset.mem_Ico] at hr
  have hmin' : ∀ y, 0 ≤ y ∧ y < size → s.pc r ≤ s.pc y := fun y hy => hmin y (Finset.mem_Ico.2 hy)
  have h6 : s.pc r < 6 := lt_of_le_of_lt (hmin' x hx) (lt_of_le_of_ne (I.le x) hpx)
  have key : ∃ d : Fin 3, s.pc r = 2 * d ∨ s.pc r = 2 * d + 1 :=
    ⟨⟨s.pc r / 2, by omega⟩, by show s.pc r = 2 * (s.pc r / 2) ∨ s.pc r = 2 * (s.pc r / 2) + 1; omega⟩
  obtain ⟨d, hd | hd⟩ := key
  · exact progress_recv hL I d (fun y hy => hd ▸ hmin' y hy) (rank2proc np r d).toNat r hr hd
      (Int.toNat_of_nonneg (rank2proc_in hL hr d).1).symm
  · refine ⟨_, .last s r d hr hd fun hlt => ?_⟩
    have ha := Adj.of_left hL hr hlt
    have := (I.wait _ _ _ ha (by omega)).1
    have := hmin' _ ha.right
    omega

/-- how many steps are left, at most -/
def left (size : ℤ) (s : St) : ℕ := ∑ r ∈ Finset.Ico 0 size, (6 - s.pc r)

theorem left_lt {s s' : St} {r : ℤ} (hr : 0 ≤ r ∧ r < size) (h6 : s.pc r < 6) (hle : ∀ x, s.pc x ≤ s'.pc x) (hlt : s.pc r < s'.pc r) :
    left size s' < left size s :=
  Finset.sum_lt_sum (fun x _ => by have := hle x; omega) ⟨r, Finset.mem_Ico.2 hr, by omega⟩

theorem update_le (f : ℤ → ℕ) (r x : ℤ) : f x ≤ Function.update f r (f r + 1) x := by
  by_cases h : x = r
  · subst h; simp
  · simp [h]

theorem Step.left_lt {b : Bool} {s s' : St} (h : Step size np ldims b s s') : left size s' < left size s := by
  have hs : ∀ (s : St) r, s.pc r < Function.update s.pc r (s.pc r + 1) r := fun s r => by simp
  cases h with
  | first r d hr hpc h => exact DomainSimple.left_lt hr (by have := d.2; omega) (update_le s.pc r) (hs s r)
  | recv r d v l hr hpc h hv => exact DomainSimple.left_lt hr (by have := d.2; omega) (update_le s.pc r) (hs s r)
  | last r d hr hpc h => exact DomainSimple.left_lt hr (by have := d.2; omega) (update_le s.pc r) (hs s r)
  | send r d hb hr hpc h => exact DomainSimple.left_lt hr (by have := d.2; omega) (update_le s.pc r) (hs s r)
  | hand r r' d hr hpc h hr' h0 hpc' h' hn hc =>
    have hne : r ≠ r' := by rintro rfl; omega
    refine DomainSimple.left_lt (r := r) hr (by have := d.2; omega)
      (fun x => (update_le s.pc r' x).trans (update_le (Function.update s.pc r' (s.pc r' + 1)) r x)) ?_
    show s.pc r < Function.update (Function.update s.pc r' (s.pc r' + 1)) r (Function.update s.pc r' (s.pc r' + 1) r + 1) r
    rw [Function.update_self, Function.update_of_ne hne]
    omega

theorem left_init (hL : Layout size np) : (left size init : ℤ) = 6 * size := by
  have h0 : 0 ≤ size := by
    have := hL.pos
    rw [← hL.size]
    exact (mul_pos (mul_pos (this 0) (this 1)) (this 2)).le
  unfold left init
  simp
  omega

theorem Inv.completes (hL : Layout size np) (b : Bool) (n : ℕ) : ∀ s : St, Inv size np ldims s → left size s ≤ n →
    ∃ s', Relation.ReflTransGen (Step size np ldims b) s s' ∧ s'.done size := by
  induction n with
  | zero =>
    intro s I hn
    by_cases hd : s.done size
    · exact ⟨s, .refl, hd⟩
    · obtain ⟨s', h⟩ := I.progress hL hd
      have := h.left_lt
      omega
  | succ n ih =>
    intro s I hn
    by_cases hd : s.done size
    · exact ⟨s, .refl, hd⟩
    · obtain ⟨s', h⟩ := I.progress hL hd
      have := h.left_lt
      obtain ⟨t, ht, hdt⟩ := ih s' (I.step hL h) (by omega)
      exact ⟨t, .head h.mono ht, hdt⟩

theorem done_off (hL : Layout size np) {s : St} (h : Reachable size np ldims s) (hd : s.done size) {r : ℤ} (hr : 0 ≤ r ∧ r < size)
    (d : Fin 3) : s.off r d = before np ldims r d :=
  (h.inv hL).off r hr d (by have := d.2; rw [hd r hr]; omega)

theorem done_chan (hL : Layout size np) {s : St} (h : Reachable size np ldims s) (hd : s.done size) (k : ℤ × ℤ × ℤ) : s.chan k = [] := by
  by_contra hk
  obtain ⟨l, r, d, ha, rfl⟩ := (h.inv hL).only k hk
  have := d.2
  exact hk ((h.inv hL).gone l r d ha (by rw [hd l ha.left]; omega) (by rw [hd r ha.right]; omega))

/-! ## Tiling -/

/-- cells before place `c` -/
def psum (w : ℤ → ℤ) (c : ℤ) : ℤ := ∑ j ∈ Finset.Ico 0 c, w j

theorem psum_succ (w : ℤ → ℤ) {c : ℤ} (h : 0 ≤ c) : psum w (c + 1) = psum w c + w c := by
  have e : Finset.Ico 0 (c + 1) = insert c (Finset.Ico 0 c) := by
    ext j
    simp only [Finset.mem_Ico, Finset.mem_insert]
    omega
  unfold psum
  rw [e, Finset.sum_insert (by simp), add_comm]

theorem psum_le {w : ℤ → ℤ} {a b N : ℤ} (ha : 0 ≤ a) (hab : a ≤ b) (hb : b ≤ N) (hw : ∀ j, 0 ≤ j → j < N → 0 ≤ w j) : psum w a ≤ psum w b := by
  unfold psum
  refine Finset.sum_le_sum_of_subset_of_nonneg (fun j hj => ?_) (fun j hj _ => ?_)
  · rw [Finset.mem_Ico] at hj ⊢
    omega
  · rw [Finset.mem_Ico] at hj
    exact hw j hj.1 (by omega)

theorem psum_find {w : ℤ → ℤ} {x : ℤ} (hx : 0 ≤ x) (N : ℕ) (h : x < psum w N) :
    ∃ c : ℤ, 0 ≤ c ∧ c < N ∧ psum w c ≤ x ∧ x < psum w c + w c := by
  induction N with
  | zero => simp [psum] at h; omega
  | succ N ih =>
    by_cases hN : x < psum w N
    · obtain ⟨c, h0, h1, h2⟩ := ih hN
      exact ⟨c, h0, by push_cast; omega, h2⟩
    · refine ⟨N, by omega, by push_cast; omega, by omega, ?_⟩
      push_cast at h
      rwa [psum_succ w (by omega)] at h

theorem psum_unique {w : ℤ → ℤ} {N x a b : ℤ} (hw : ∀ j, 0 ≤ j → j < N → 0 ≤ w j) (ha : 0 ≤ a ∧ a < N) (hb : 0 ≤ b ∧ b < N)
    (hxa : psum w a ≤ x ∧ x < psum w a + w a) (hxb : psum w b ≤ x ∧ x < psum w b + w b) : a = b := by
  by_contra hne
  rcases lt_or_gt_of_ne hne with h | h
  · have := psum_le (a := a + 1) (b := b) (N := N) (by omega) (by omega) (by omega) hw
    rw [psum_succ w ha.1] at this
    omega
  · have := psum_le (a := b + 1) (b := a) (N := N) (by omega) (by omega) (by omega) hw
    rw [psum_succ w hb.1] at this
    omega

theorem InGrid.update {p : I3} (h : InGrid np p) {d : Fin 3} {j : ℤ} (hj : 0 ≤ j ∧ j < np d) : InGrid np (Function.update p d j) := by
  intro e
  by_cases he : e = d
  · subst he; simpa using hj
  · simpa [he] using h e

theorem before_aligned (hL : Layout size np) {w : Fin 3 → ℤ → ℤ} (hA : Aligned size np ldims w) {r : ℤ} (hr : 0 ≤ r ∧ r < size)
    (d : Fin 3) : before np ldims r d = psum (w d) (rank2proc np r d) := by
  unfold before psum
  refine Finset.sum_congr rfl fun j hj => ?_
  rw [Finset.mem_Ico] at hj
  have hin := rank2proc_in hL hr
  have hin' := hin.update (d := d) (j := j) ⟨hj.1, by have := hin d; omega⟩
  have := (hA _ (proc2rank_range hL hin') d).1
  rw [rank2proc_proc2rank hL hin', Function.update_self] at this
  exact this

theorem last_in (hL : Layout size np) : InGrid np fun d => np d - 1 := fun d => by
  have := hL.pos d
  dsimp only
  omega

theorem Aligned.nonneg (hL : Layout size np) {w : Fin 3 → ℤ → ℤ} (hA : Aligned size np ldims w) (d : Fin 3) (j : ℤ) (h0 : 0 ≤ j)
    (h1 : j < np d) : 0 ≤ w d j := by
  have hin := (last_in hL).update (d := d) ⟨h0, h1⟩
  have := (hA _ (proc2rank_range hL hin) d).2
  rw [rank2proc_proc2rank hL hin, Function.update_self] at this
  exact this

theorem gdims_aligned (hL : Layout size np) {w : Fin 3 → ℤ → ℤ} (hA : Aligned size np ldims w) {s : St}
    (h : Reachable size np ldims s) (hd : s.done size) (d : Fin 3) : gdims np ldims s d = psum (w d) (np d) := by
  unfold gdims
  have hr := proc2rank_range hL (last_in hL)
  have hp := hL.pos d
  rw [done_off hL h hd hr, before_aligned hL hA hr, (hA _ hr d).1, rank2proc_proc2rank hL (last_in hL),
    ← psum_succ (w d) (by dsimp only; omega), sub_add_cancel]

end Psc.DomainSimple
