import Verif.Lemmas.BndRad
import Mathlib.Tactic.LinearCombination

/-!
# C13: what the radiating boundary reads
-/

namespace Psc.Props

open Domain Fields Ddc FieldStep BndFields Spec Yee

section
variable {K : Type} [Field K]

theorem fin3_other : ∀ d e : Fin 3, e ≠ d → e = d + 2 ∨ e = d + 1 := by decide

theorem rd_congr {c : Cfg} {g : GridP K} {F G : PF K} (hFG : ∀ m n, Stored c n → F (m, n) = G (m, n)) (m : ℕ) (n : I3)
    (h : Stored c (pos g.inv n)) : rd g F m n = rd g G m n := hFG m _ h

/-- **C13** the values that a radiating boundary gives to the cells of a patch depend only on what is stored in the patch, except in the
outermost layer of ghost cells on the lower sides of the other directions. -/
theorem C13_storage_partial (c : Cfg) (g : GridP K) (b : BndP K) (h : FitsB c g b) (p : ℕ) (d : Fin 3) (hd : g.inv d = false) (F G : PF K)
    (hFG : ∀ m n, Stored c n → F (m, n) = G (m, n)) (m : ℕ) (n : I3) (hn : Stored c n)
    (hin : ∀ e, e ≠ d → g.inv e = false → -c.ibn e < n e) :
    radiative_H_lo c g b p d F (m, n) = radiative_H_lo c g b p d G (m, n) ∧
    radiative_H_hi c g b p d F (m, n) = radiative_H_hi c g b p d G (m, n) := by
  have hpos : ∀ k : I3, (∀ e, g.inv e = false → -c.ibn e ≤ k e ∧ k e < c.ldims e + c.ibn e) → Stored c (pos g.inv k) := by
    intro k hk e
    unfold pos ix
    cases he : g.inv e
    · simpa using hk e he
    · have h1 := (h.inv e he)
      have h2 := h.pos e
      rw [h.ldims, h1.2.2.1]
      simp only [if_true]
      omega
  have hst := hn
  have hib := (h.act d hd).1
  have hld := h.pos d
  constructor
  · by_cases hm : n d = -1 ∧ (m = HX + ((d + 2 : Fin 3) : ℕ) ∨ m = HX + ((d + 1 : Fin 3) : ℕ))
    · have hbox : n ∈ box (Function.update (ibOf c) d (-1)) (Function.update (ieOf c) d 0) := by
        refine mem_box.2 fun e => ?_
        by_cases hed : e = d
        · subst hed; rw [Function.update_self, Function.update_self]; omega
        · rw [Function.update_of_ne hed, Function.update_of_ne hed]; exact hst e
      obtain ⟨f1, f2⟩ := radiative_lo_value h p hd F hbox
      obtain ⟨g1, g2⟩ := radiative_lo_value h p hd G hbox
      have s0 : Stored c (pos g.inv (sh n d 1)) := by
        refine hpos _ fun e he => ?_
        have := hst e
        unfold sh
        split
        · rename_i hed; subst hed; rw [← h.ldims] at hld; omega
        · exact this
      have s1 : ∀ e', e' ≠ d → Stored c (pos g.inv (sh (sh n d 1) e' (-1))) := by
        intro e' he'
        refine hpos _ fun e he => ?_
        have := hst e
        unfold sh
        split
        · rename_i hed
          subst hed
          rw [if_neg he']
          have := hin e he' he
          omega
        · split
          · rename_i hed; subst hed; rw [← h.ldims] at hld; omega
          · exact this
      have e : vLo g b p d F n = vLo g b p d G n := by
        unfold vLo
        simp only [rd_congr hFG _ _ s0, rd_congr hFG _ _ (s1 _ (fin3_ne d).1), rd_congr hFG _ _ (s1 _ (fin3_ne d).2)]
      rcases hm.2 with hm | hm
      · rw [hm, f1, g1, e]
      · rw [hm, f2, g2, e]
    · have fr : ∀ F : PF K, radiative_H_lo c g b p d F (m, n) = F (m, n) := by
        intro F
        unfold radiative_H_lo
        refine foldl_frame _ _ (fun k : ℕ × I3 => k.2 d = -1 ∧ (k.1 = HX + ((d + 2 : Fin 3) : ℕ) ∨ k.1 = HX + ((d + 1 : Fin 3) : ℕ)))
          (fun i hi F k hk => ?_) F (m, n) hm
        have hi' := mem_box.1 hi d
        rw [Function.update_self, Function.update_self] at hi'
        apply radLo_frame
        · rintro rfl
          exact hk ⟨by simp only; rw [pos_act hd]; omega, .inr rfl⟩
        · rintro rfl
          exact hk ⟨by simp only; rw [pos_act hd]; omega, .inl rfl⟩
      rw [fr, fr, hFG m n hst]
  · by_cases hm : n d = g.ldims d ∧ (m = HX + ((d + 2 : Fin 3) : ℕ) ∨ m = HX + ((d + 1 : Fin 3) : ℕ))
    · have hbox : n ∈ box (Function.update (ibOf c) d (g.ldims d)) (Function.update (ieOf c) d (g.ldims d + 1)) := by
        refine mem_box.2 fun e => ?_
        by_cases hed : e = d
        · subst hed; rw [Function.update_self, Function.update_self]; omega
        · rw [Function.update_of_ne hed, Function.update_of_ne hed]; exact hst e
      obtain ⟨f1, f2⟩ := radiative_hi_value h p hd F hbox
      obtain ⟨g1, g2⟩ := radiative_hi_value h p hd G hbox
      have s0 : Stored c (pos g.inv (sh n d (-1))) := by
        refine hpos _ fun e he => ?_
        have := hst e
        unfold sh
        split
        · rename_i hed; subst hed; rw [← h.ldims] at hld hm; omega
        · exact this
      have sn : Stored c (pos g.inv n) := hpos _ fun e _ => hst e
      have s1 : ∀ e', e' ≠ d → Stored c (pos g.inv (sh n e' (-1))) := by
        intro e' he'
        refine hpos _ fun e he => ?_
        have := hst e
        unfold sh
        split
        · rename_i hed
          subst hed
          have := hin e he' he
          omega
        · exact this
      have e : vHi g b p d F n = vHi g b p d G n := by
        unfold vHi
        simp only [rd_congr hFG _ _ s0, rd_congr hFG _ _ sn, rd_congr hFG _ _ (s1 _ (fin3_ne d).1), rd_congr hFG _ _ (s1 _ (fin3_ne d).2)]
      rcases hm.2 with hm | hm
      · rw [hm, f1, g1, e]
      · rw [hm, f2, g2, e]
    · have fr : ∀ F : PF K, radiative_H_hi c g b p d F (m, n) = F (m, n) := by
        intro F
        unfold radiative_H_hi
        refine foldl_frame _ _ (fun k : ℕ × I3 => k.2 d = g.ldims d ∧ (k.1 = HX + ((d + 2 : Fin 3) : ℕ) ∨ k.1 = HX + ((d + 1 : Fin 3) : ℕ)))
          (fun i hi F k hk => ?_) F (m, n) hm
        have hi' := mem_box.1 hi d
        rw [Function.update_self, Function.update_self] at hi'
        apply radHi_frame
        · rintro rfl
          exact hk ⟨by simp only; rw [pos_act hd]; omega, .inr rfl⟩
        · rintro rfl
          exact hk ⟨by simp only; rw [pos_act hd]; omega, .inl rfl⟩
      rw [fr, fr, hFG m n hst]

/-- **C13**, what the code does not do: in every patch at an open lower boundary the loop over the other directions begins at the first ghost
cell and reads one cell before it, outside of what is stored there, so that ghost cells depend on what happens to be in memory. -/
theorem C13_storage_violation (c : Cfg) (g : GridP K) (b : BndP K) (h : FitsB c g b) (p : ℕ) (d : Fin 3) (hd : g.inv d = false)
    (hcfl : 1 + g.dt * (1 / g.dx d) ≠ 0) (e : Fin 3) (hed : e ≠ d) (he : g.inv e = false) :
    ∃ F G : PF K, (∀ m n, Stored c n → F (m, n) = G (m, n)) ∧
      ∃ m n, Stored c n ∧ radiative_H_lo c g b p d F (m, n) ≠ radiative_H_lo c g b p d G (m, n) := by
  let n : I3 := fun i => if i = d then -1 else if i = e then -c.ibn e else 0
  have hibd := (h.act d hd).1
  have hibe := (h.act e he).1
  have hst : Stored c n := by
    intro i
    have hp := h.pos i
    rw [← h.ldims] at hp
    have hib : 0 ≤ c.ibn i := by
      cases hi : g.inv i
      · have := (h.act i hi).1; omega
      · have := (h.inv i hi).2.2.1; omega
    show -c.ibn i ≤ (if i = d then -1 else if i = e then -c.ibn e else 0) ∧ (if i = d then -1 else if i = e then -c.ibn e else 0) < _
    by_cases h1 : i = d
    · rw [if_pos h1]; subst h1; omega
    · rw [if_neg h1]
      by_cases h2 : i = e
      · rw [if_pos h2]; subst h2; omega
      · rw [if_neg h2]; omega
  have hbox : n ∈ box (Function.update (ibOf c) d (-1)) (Function.update (ieOf c) d 0) := by
    refine mem_box.2 fun i => ?_
    by_cases hid : i = d
    · subst hid; rw [Function.update_self, Function.update_self]; show -1 ≤ (if i = i then (-1 : ℤ) else _) ∧ (if i = i then (-1 : ℤ) else _) < 0
      rw [if_pos rfl]; omega
    · rw [Function.update_of_ne hid, Function.update_of_ne hid]; exact hst i
  have hne : n e = -c.ibn e := by show (if e = d then (-1 : ℤ) else if e = e then -c.ibn e else 0) = _; rw [if_neg hed, if_pos rfl]
  let G : PF K := Function.update (fun _ => 0) (HX + (d : ℕ), pos g.inv (sh (sh n d 1) e (-1))) 1
  have hout : pos g.inv (sh (sh n d 1) e (-1)) e = -c.ibn e - 1 := by
    rw [pos_act he]
    unfold sh
    rw [if_pos rfl, if_neg hed, hne]
    ring
  have g0 : ∀ (m : ℕ) (k : I3), pos g.inv k e ≠ -c.ibn e - 1 → rd g G m k = 0 := by
    intro m k hk
    show Function.update (fun _ => (0 : K)) _ 1 _ = 0
    rw [Function.update_of_ne]
    intro e'
    rw [Prod.mk.injEq] at e'
    exact hk (by rw [e'.2]; exact hout)
  have g1 : rd g G (HX + (d : ℕ)) (sh (sh n d 1) e (-1)) = 1 := by
    show Function.update (fun _ => (0 : K)) _ 1 _ = 1
    rw [Function.update_self]
  have f0 : ∀ (m : ℕ) (k : I3), rd g (fun _ => (0 : K)) m k = 0 := fun _ _ => rfl
  have s0 : pos g.inv (sh n d 1) e ≠ -c.ibn e - 1 := by
    rw [pos_act he]
    unfold sh
    rw [if_neg hed, hne]
    omega
  have s1 : ∀ e', e' ≠ e → pos g.inv (sh (sh n d 1) e' (-1)) e ≠ -c.ibn e - 1 := by
    intro e' he'
    rw [pos_act he]
    unfold sh
    rw [if_neg (Ne.symm he'), if_neg hed, hne]
    omega
  have hdt : dtdx g e ≠ 0 := mul_ne_zero h.dt (one_div_ne_zero (h.dx e))
  have fin : ∀ X bh : K, X / (1 + dtdx g d) + bh ≠ (X + dtdx g e) / (1 + dtdx g d) + bh := by
    intro X bh hh
    have h1 : X / (1 + dtdx g d) = (X + dtdx g e) / (1 + dtdx g d) := add_right_cancel hh
    rw [div_left_inj' (show 1 + dtdx g d ≠ 0 from hcfl)] at h1
    exact hdt (by linear_combination -h1)
  refine ⟨fun _ => 0, G, ?_, ?_⟩
  · intro m k hk
    show (0 : K) = Function.update (fun _ => (0 : K)) _ 1 _
    rw [Function.update_of_ne]
    intro e'
    rw [Prod.mk.injEq] at e'
    have := (hk e).1
    rw [e'.2, hout] at this
    omega
  obtain ⟨a1, a2⟩ := radiative_lo_value h p hd (fun _ => (0 : K)) hbox
  obtain ⟨b1, b2⟩ := radiative_lo_value h p hd G hbox
  have hor : e = d + 2 ∨ e = d + 1 := fin3_other d e hed
  rcases hor with hor | hor
  · refine ⟨HX + ((d + 2 : Fin 3) : ℕ), n, hst, ?_⟩
    rw [a1, b1]
    unfold vLo
    simp only [f0, g0 _ _ s0, ← hor, g1]
    intro hh
    refine fin _ _ (hh.trans ?_)
    congr 2
    ring
  · refine ⟨HX + ((d + 1 : Fin 3) : ℕ), n, hst, ?_⟩
    rw [a2, b2]
    unfold vLo
    simp only [f0, g0 _ _ s0, ← hor, g1]
    intro hh
    refine fin _ _ (hh.trans ?_)
    congr 2
    ring

end

/-- the hypotheses of both are met: one patch with open boundaries in y and z -/
example : ∃ (c : Cfg) (g : GridP ℚ) (b : BndP ℚ), FitsB c g b ∧ b.fld_lo 1 = .open ∧ g.inv 1 = false ∧ g.inv 2 = false ∧
    1 + g.dt * (1 / g.dx 1) ≠ 0 := by
  refine ⟨⟨⟨![1, 1, 1], ![false, false, false], .bydim, [1]⟩, ![1, 2, 2], ![0, 2, 2]⟩, ⟨![1, 2, 2], ![true, false, false], ![1, 1, 1], 1/2⟩,
    ⟨![.periodic, .open, .open], ![.periodic, .open, .open], ![0, 0, 0], ![0, 0, 0], none⟩, ?_, rfl, rfl, rfl, by norm_num⟩
  exact { ok := ⟨⟨rfl, by decide⟩, by decide⟩, ldims := rfl, pos := by decide, inv := by decide, act := by decide, dx := by decide +kernel,
          dt := by decide +kernel }

end Psc.Props
