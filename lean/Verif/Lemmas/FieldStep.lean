import Verif.Spec.GlobalFields
import Verif.Lemmas.Refine
import Verif.Props.Ddc
import Mathlib.Tactic.FinCases
import Mathlib.Tactic.LinearCombination
import Mathlib.Tactic.FieldSimp
import Mathlib.Tactic.Positivity
import Mathlib.Tactic.Linarith
import Mathlib.Algebra.Order.Group.Unbundled.Abs

namespace Psc.FieldStep

open Domain Fields Ddc Spec Yee Props

section
variable {K : Type} [Field K]

theorem phys_wrap (c : Cfg) (r p : ℕ) (n : I3) : phys c r p n = wrap c (fun d => c.off r p d + n d) := rfl

theorem wrap_wrap (c : Cfg) (x : I3) : wrap c (wrap c x) = wrap c x := by
  funext d; unfold wrap; split_ifs <;> simp

theorem wrap_shift {c : Cfg} {x y : I3} (h : wrap c x = wrap c y) (d : Fin 3) (s : ℤ) :
    wrap c (shift x d s) = wrap c (shift y d s) := by
  funext e
  have he := congrFun h e
  unfold wrap shift at *
  split_ifs at * with h1 h2
  · rw [Int.add_emod, he, ← Int.add_emod]
  · exact he
  · rw [he]
  · exact he

theorem Periodic.dF {c : Cfg} {G : I3 → K} (h : Periodic c G) (act : Fin 3 → Bool) (dx : R3 K) (d : Fin 3) :
    Periodic c (dF act dx G d) := by
  intro x y hxy
  unfold Yee.dF
  rw [h x y hxy, h _ _ (wrap_shift hxy d 1)]

theorem Periodic.dB {c : Cfg} {G : I3 → K} (h : Periodic c G) (act : Fin 3 → Bool) (dx : R3 K) (d : Fin 3) :
    Periodic c (dB act dx G d) := by
  intro x y hxy
  unfold Yee.dB
  rw [h x y hxy, h _ _ (wrap_shift hxy d (-1))]

theorem Periodic.ampere {c : Cfg} {E H J : VF K} (hE : ∀ d, Periodic c (E d)) (hH : ∀ d, Periodic c (H d))
    (hJ : ∀ d, Periodic c (J d)) (act : Fin 3 → Bool) (dx : R3 K) (dt : K) (d : Fin 3) :
    Periodic c (ampere act dx dt E H J d) := by
  intro x y hxy
  simp only [Yee.ampere, curlH]
  rw [hE d x y hxy, hJ d x y hxy, (hH _).dB act dx _ x y hxy, (hH _).dB act dx _ x y hxy]

theorem Periodic.faraday {c : Cfg} {E H : VF K} (hE : ∀ d, Periodic c (E d)) (hH : ∀ d, Periodic c (H d))
    (act : Fin 3 → Bool) (dx : R3 K) (dt : K) (d : Fin 3) :
    Periodic c (faraday act dx dt E H d) := by
  intro x y hxy
  simp only [Yee.faraday, curlE]
  rw [hH d x y hxy, (hE _).dF act dx _ x y hxy, (hE _).dF act dx _ x y hxy]

theorem Periodic.divE {c : Cfg} {E : VF K} (hE : ∀ d, Periodic c (E d)) (act : Fin 3 → Bool) (dx : R3 K) :
    Periodic c (divE act dx E) := by
  intro x y hxy
  simp only [Yee.divE]
  rw [(hE 0).dB act dx 0 x y hxy, (hE 1).dB act dx 1 x y hxy, (hE 2).dB act dx 2 x y hxy]

theorem total_periodic (c : Cfg) (dep : Glob K) (m : ℕ) : Periodic c (total c dep m) := by
  intro x y hxy
  unfold total
  rw [hxy]

theorem Fits.c_pos {c : Cfg} {g : GridP K} (h : Fits c g) (d : Fin 3) : 0 < c.ldims d := by rw [h.ldims]; exact h.pos d

theorem Fits.inDomain {c : Cfg} {g : GridP K} (h : Fits c g) {r p : ℕ} (hp : c.D.Has r p) {n : I3} (hn : Stored c n) :
    InDomain c r p n := by
  intro d
  cases hd : g.inv d with
  | false => exact Or.inl (h.act d hd).1
  | true =>
    right
    obtain ⟨h1, h2, h3⟩ := h.inv d hd
    have hi := (C25_idx3_owner c.D h.ok.valid r p hp).1 d
    have hs := hn d
    unfold Cfg.off Cfg.gdims
    rw [h.ldims, h1, h2]
    rw [h.ldims, h1, h3] at hs
    rw [h2] at hi
    have : c.D.idx3 r p d = 0 := by omega
    rw [this]
    push_cast
    omega

theorem interior_stored {c : Cfg} (hc : c.Ok) {n : I3} (h : Interior c n) : Stored c n := by
  intro d; have := h d; have := hc.ibn d; omega

theorem Holds.owns {c : Cfg} (hc : c.Ok) {σ : Glob K} {m : ℕ} {G : I3 → K} (h : Holds c σ m G) : Owns c σ m G :=
  fun r p hp n hn => h r p hp n (interior_stored hc hn)

/-! ### Collective operations -/

theorem collective_some (n : ℕ) (f : ℕ → Option (RankState K)) (σ τ : Glob K) (h : ∀ r, f r = some (τ r)) :
    collective n f σ = some τ := by
  unfold collective
  rw [if_pos (fun r _ => by rw [h r]; rfl)]
  congr 1
  funext r
  rw [h r]; rfl

/-- Filling ghosts on all ranks succeeds, spreads what the owners hold into the ghost cells, and changes no other
component. -/
theorem fillAll_spec {c : Cfg} {g : GridP K} (h : Fits c g) (mb me : ℕ) (hm : mb ≤ me) (σ : Glob K) :
    ∃ τ, fillAll c mb me σ = some τ ∧
      (∀ m G, mb ≤ m → m < me → Periodic c G → Owns c σ m G → Holds c τ m G) ∧
      (∀ m, (m < mb ∨ me ≤ m) → ∀ r p, c.D.Has r p → ∀ n, τ r p (m, n) = σ r p (m, n)) := by
  choose τ hτ hv using fun rank => C27_fill_owner c h.ok mb me hm σ rank
  refine ⟨τ, collective_some _ _ _ _ hτ, ?_, ?_⟩
  · intro m G h1 h2 hG hO r p hp n hn
    obtain ⟨⟨⟨r', p'⟩, n'⟩, ⟨hp', hi, he⟩, -⟩ := C27_unique_owner c h.ok h.c_pos r p n hp hn (h.inDomain hp hn)
    simp only at hp' hi he
    rw [hv r p m n r' p' n' hp hp' h1 h2 hn hi he, hO r' p' hp' n' hi]
    exact hG _ _ he
  · intro m hm' r p hp n
    obtain ⟨S, hS, hS'⟩ := C27_fill_rest c h.ok mb me hm σ r
    rw [hτ r, Option.some.injEq] at hS
    rw [hS]
    apply hS' p m n hp
    tauto

/-- Adding ghosts on all ranks succeeds, gives every owner the total of all deposits, and changes no other component. -/
theorem addAll_spec {c : Cfg} {g : GridP K} (h : Fits c g) (mb me : ℕ) (hm : mb ≤ me) (σ : Glob K) :
    ∃ τ, addAll c mb me σ = some τ ∧
      (∀ m, mb ≤ m → m < me → Owns c τ m (total c σ m)) ∧
      (∀ m, (m < mb ∨ me ≤ m) → ∀ r p, c.D.Has r p → ∀ n, τ r p (m, n) = σ r p (m, n)) := by
  choose τ hτ hv using fun rank => C28_add_owner c h.ok mb me hm σ rank
  refine ⟨τ, collective_some _ _ _ _ hτ, ?_, ?_⟩
  · intro m h1 h2 r p hp n hn
    rw [hv r p m n hp h1 h2 hn]
    rfl
  · intro m hm' r p hp n
    obtain ⟨S, hS, hS'⟩ := C28_add_rest c h.ok mb me hm σ r
    rw [hτ r, Option.some.injEq] at hS
    rw [hS]
    apply hS' p m n hp
    tauto

/-! ### Pushes -/

theorem toFlds_J (F : PF K) (d : Fin 3) (n : I3) : cv ((toFlds F).J d) n = F (JXI + d, n) := by
  unfold cv toFlds
  simp only
  congr 2
  funext e; fin_cases e <;> rfl

theorem toFlds_E (F : PF K) (d : Fin 3) (n : I3) : cv ((toFlds F).E d) n = F (EX + d, n) := by
  unfold cv toFlds
  simp only
  congr 2
  funext e; fin_cases e <;> rfl

theorem toFlds_H (F : PF K) (d : Fin 3) (n : I3) : cv ((toFlds F).H d) n = F (HX + d, n) := by
  unfold cv toFlds
  simp only
  congr 2
  funext e; fin_cases e <;> rfl

theorem ofFlds_J (G : Flds K) (F : PF K) (d : Fin 3) (n : I3) : ofFlds G F (JXI + d, n) = cv (G.J d) n := by
  fin_cases d <;> rfl

theorem ofFlds_E (G : Flds K) (F : PF K) (d : Fin 3) (n : I3) : ofFlds G F (EX + d, n) = cv (G.E d) n := by
  fin_cases d <;> rfl

theorem ofFlds_H (G : Flds K) (F : PF K) (d : Fin 3) (n : I3) : ofFlds G F (HX + d, n) = cv (G.H d) n := by
  fin_cases d <;> rfl

theorem Fits.gridOk {c : Cfg} {g : GridP K} (h : Fits c g) : GridOk g := fun d hd => (h.inv d hd).1

theorem Fits.region_stored {c : Cfg} {g : GridP K} (h : Fits c g) {l r : ℤ} (hl : l ≤ 2) (hr : r ≤ 2) {n : I3}
    (hn : Region g l r n) : Stored c n := by
  intro d
  have := hn d
  rw [h.ldims]
  cases hd : g.inv d with
  | false =>
    rw [hd] at this
    simp only [Bool.false_eq_true, if_false] at this
    have := (h.act d hd).2
    omega
  | true =>
    rw [hd] at this
    simp only [if_true] at this
    obtain ⟨h1, h2, h3⟩ := h.inv d hd
    rw [h1, h3]; omega

theorem Fits.interior_region {c : Cfg} {g : GridP K} (h : Fits c g) {l r : ℤ} (hl : 0 ≤ l) (hr : 0 ≤ r) {n : I3}
    (hn : Interior c n) : Region g l r n := by
  intro d
  have := hn d
  rw [h.ldims] at this
  cases hd : g.inv d with
  | false => simp only [Bool.false_eq_true, if_false]; omega
  | true =>
    obtain ⟨h1, -, -⟩ := h.inv d hd
    simp only [if_true]; omega

theorem pushE_spec {c : Cfg} {g : GridP K} (h : Fits c g) (fac : K) (σ : Glob K) (E H J : VF K)
    (hE : ∀ d : Fin 3, Holds c σ (EX + d) (E d)) (hH : ∀ d : Fin 3, Holds c σ (HX + d) (H d))
    (hJ : ∀ d : Fin 3, Holds c σ (JXI + d) (J d)) :
    (∀ d : Fin 3, Owns c (pushE g fac σ) (EX + d) (ampere g.act g.dx (fac * g.dt) E H J d)) ∧
    (∀ d : Fin 3, Holds c (pushE g fac σ) (HX + d) (H d)) ∧ (∀ d : Fin 3, Holds c (pushE g fac σ) (JXI + d) (J d)) := by
  have hag : ∀ r p, c.D.Has r p → ∀ l r' : ℤ, l ≤ 2 → r' ≤ 2 →
      (∀ d, Agree g (c.off r p) l r' ((toFlds (σ r p)).E d) (E d)) ∧
      (∀ d, Agree g (c.off r p) l r' ((toFlds (σ r p)).H d) (H d)) ∧
      (∀ d, Agree g (c.off r p) l r' ((toFlds (σ r p)).J d) (J d)) := by
    intro r p hp l r' hl hr
    refine ⟨?_, ?_, ?_⟩ <;> intro d n hn
    · rw [toFlds_E]; exact hE d r p hp n (h.region_stored hl hr hn)
    · rw [toFlds_H]; exact hH d r p hp n (h.region_stored hl hr hn)
    · rw [toFlds_J]; exact hJ d r p hp n (h.region_stored hl hr hn)
  obtain hfr := fun r p => push_E_eq g h.gridOk fac (toFlds (σ r p))
  refine ⟨?_, ?_, ?_⟩
  · intro d r p hp n hn
    have := push_E_agree g h.gridOk fac (c.off r p) (toFlds (σ r p)) E H J (hag r p hp 1 2 (by omega) (by omega)).1
      (hag r p hp 2 2 (by omega) (by omega)).2.1 (hag r p hp 1 2 (by omega) (by omega)).2.2 d n
      (h.interior_region (by omega) (by omega) hn)
    unfold pushE
    rw [ofFlds_E]; exact this
  · intro d r p hp n hn
    unfold pushE
    rw [ofFlds_H, (hfr r p).1, toFlds_H]; exact hH d r p hp n hn
  · intro d r p hp n hn
    unfold pushE
    rw [ofFlds_J, (hfr r p).2.1, toFlds_J]; exact hJ d r p hp n hn

theorem pushH_spec {c : Cfg} {g : GridP K} (h : Fits c g) (fac : K) (σ : Glob K) (E H : VF K)
    (hE : ∀ d : Fin 3, Holds c σ (EX + d) (E d)) (hH : ∀ d : Fin 3, Holds c σ (HX + d) (H d)) :
    (∀ d : Fin 3, Owns c (pushH g fac σ) (HX + d) (faraday g.act g.dx (fac * g.dt) E H d)) ∧
    (∀ d : Fin 3, Holds c (pushH g fac σ) (EX + d) (E d)) ∧
    (∀ (d : Fin 3) r p n, pushH g fac σ r p (JXI + d, n) = σ r p (JXI + d, n)) := by
  have hag : ∀ r p, c.D.Has r p → ∀ l r' : ℤ, l ≤ 2 → r' ≤ 2 →
      (∀ d, Agree g (c.off r p) l r' ((toFlds (σ r p)).E d) (E d)) ∧
      (∀ d, Agree g (c.off r p) l r' ((toFlds (σ r p)).H d) (H d)) := by
    intro r p hp l r' hl hr
    refine ⟨?_, ?_⟩ <;> intro d n hn
    · rw [toFlds_E]; exact hE d r p hp n (h.region_stored hl hr hn)
    · rw [toFlds_H]; exact hH d r p hp n (h.region_stored hl hr hn)
  obtain hfr := fun r p => push_H_eq g h.gridOk fac (toFlds (σ r p))
  refine ⟨?_, ?_, ?_⟩
  · intro d r p hp n hn
    have := push_H_agree g h.gridOk fac (c.off r p) (toFlds (σ r p)) E H (hag r p hp 2 2 (by omega) (by omega)).1
      (hag r p hp 2 1 (by omega) (by omega)).2 d n (h.interior_region (by omega) (by omega) hn)
    unfold pushH
    rw [ofFlds_H]; exact this
  · intro d r p hp n hn
    unfold pushH
    rw [ofFlds_E, (hfr r p).1, toFlds_E]; exact hE d r p hp n hn
  · intro d r p n
    unfold pushH
    rw [ofFlds_J, (hfr r p).2.1, toFlds_J]

/-! ### Marder correction -/

theorem foldl_fin3 {α : Type*} (f : α → Fin 3 → α) (a : α) : (List.finRange 3).foldl f a = f (f (f a 0) 1) 2 := rfl

theorem shift_dn_eq (n : I3) (a : Fin 3) : (fun e => if e = a then n e - 1 else n e) = shift n a (-1) := by
  funext e; unfold shift; split_ifs <;> ring

theorem shift_up_eq (n : I3) (a : Fin 3) : (fun e => if e = a then n e + 1 else n e) = shift n a 1 := rfl

theorem Fits.shift_stored {c : Cfg} {g : GridP K} (h : Fits c g) {n : I3} (hn : Interior c n) {a : Fin 3}
    (ha : g.inv a = false) {s : ℤ} (h1 : -2 ≤ s) (h2 : s ≤ 2) : Stored c (shift n a s) := by
  intro d
  have := hn d
  have := h.ok.ibn d
  unfold shift
  split_ifs with hd
  · subst hd
    have := (h.act d ha).2
    omega
  · omega

theorem div_nc_spec {c : Cfg} {g : GridP K} (h : Fits c g) {σ : Glob K} {E : VF K}
    (hE : ∀ d : Fin 3, Holds c σ (EX + d) (E d)) {r p : ℕ} (hp : c.D.Has r p) {n : I3} (hn : Interior c n) :
    div_nc g (σ r p) n = divE g.act g.dx E (fun d => c.off r p d + n d) := by
  have key : ∀ a : Fin 3, g.inv a = false →
      (σ r p (EX + a, n) - σ r p (EX + a, fun e => if e = a then n e - 1 else n e)) / g.dx a =
        dB g.act g.dx (E a) a (fun d => c.off r p d + n d) := by
    intro a ha
    unfold dB GridP.act
    rw [ha, shift_dn_eq, hE a r p hp n (interior_stored h.ok hn),
      hE a r p hp _ (h.shift_stored hn ha (by omega) (by omega)), shift_add]
    simp
  have key' : ∀ a : Fin 3, g.inv a = true → dB g.act g.dx (E a) a (fun d => c.off r p d + n d) = 0 := by
    intro a ha
    unfold dB GridP.act
    rw [ha]; simp
  unfold div_nc
  rw [foldl_fin3]
  unfold divE
  have step : ∀ (a : Fin 3) (x : K), (if g.inv a = true then x
      else x + (σ r p (EX + a, n) - σ r p (EX + a, fun e => if e = a then n e - 1 else n e)) / g.dx a) =
      x + dB g.act g.dx (E a) a (fun d => c.off r p d + n d) := by
    intro a x
    cases ha : g.inv a with
    | true => rw [if_pos rfl, key' a ha]; ring
    | false => rw [if_neg (by simp), key a ha]
  rw [step, step, step]
  ring

/-- no walls -/
def Walls.None (w : Walls) : Prop := ∀ r p d, w.lo r p d = false ∧ w.hi r p d = false

theorem residual_owns {c : Cfg} {g : GridP K} (h : Fits c g) {w : Walls} (hw : w.None) {rho junk σ : Glob K} {E : VF K}
    {ρ : I3 → K} (hE : ∀ d : Fin 3, Holds c σ (EX + d) (E d)) (hr : Owns c rho 0 ρ) :
    Owns c (residual g w rho junk σ) 0 (fun x => divE g.act g.dx E x - ρ x) := by
  intro r p hp n hn
  have hz : zeroed g w r p n = false := by
    unfold zeroed
    simp [(hw r p _).1, (hw r p _).2]
  have hi : ∀ d, 0 ≤ n d ∧ n d < g.ldims d := by rw [← h.ldims]; exact hn
  unfold residual
  simp only
  rw [hz, if_neg (by simp), if_pos hi, div_nc_spec h hE hp hn, hr r p hp n hn]

theorem correct_other (g : GridP K) (diff : K) (res σ : Glob K) (r p m : ℕ) (n : I3) (hm : m < EX ∨ EX + 3 ≤ m) :
    correct g diff res σ r p (m, n) = σ r p (m, n) := by
  have a0 : ¬ m = EX + ((0 : Fin 3) : ℕ) := by simp; omega
  have a1 : ¬ m = EX + ((1 : Fin 3) : ℕ) := by simp; omega
  have a2 : ¬ m = EX + ((2 : Fin 3) : ℕ) := by simp; omega
  unfold correct
  rw [foldl_fin3]
  cases g.inv 0 <;> cases g.inv 1 <;> cases g.inv 2 <;>
    simp only [a0, a1, a2, Bool.false_eq_true, if_false, if_true, false_and]

theorem correct_E {c : Cfg} {g : GridP K} (h : Fits c g) (diff : K) (res σ : Glob K) (E : VF K) (R : I3 → K)
    (hE : ∀ d : Fin 3, Owns c σ (EX + d) (E d)) (hR : Holds c res 0 R) (d : Fin 3) :
    Owns c (correct g diff res σ) (EX + d)
      (fun x => E d x + 1/2 * g.dt * diff * grad g.act g.dx R d x) := by
  intro r p hp n hn
  have hi : ∀ d, 0 ≤ n d ∧ n d < g.ldims d := by rw [← h.ldims]; exact hn
  have hv : correct g diff res σ r p (EX + d, n) =
      if g.inv d then σ r p (EX + d, n) else
        σ r p (EX + d, n) + (res r p (0, shift n d 1) - res r p (0, n)) * (1/2 * g.dt * diff * (1 / g.dx d)) := by
    unfold correct
    rw [foldl_fin3]
    simp only [shift_up_eq]
    fin_cases d <;> cases h0 : g.inv 0 <;> cases h1 : g.inv 1 <;> cases h2 : g.inv 2 <;> simp [hi, h0, h1, h2]
  rw [hv]
  unfold grad dF GridP.act
  cases hd : g.inv d with
  | true => simp [hE d r p hp n hn]
  | false =>
    simp only [Bool.false_eq_true, if_false, Bool.not_false, if_true]
    rw [hE d r p hp n hn, hR r p hp n (interior_stored h.ok hn),
      hR r p hp _ (h.shift_stored hn hd (by omega) (by omega)), shift_add]
    ring

/-- One iteration of the Marder loop on all ranks. -/
theorem marderLoop_spec {c : Cfg} {g : GridP K} (h : Fits c g) {w : Walls} (hw : w.None) (diff : K) {rho junk σ : Glob K}
    {E : VF K} {ρ : I3 → K} (pE : ∀ d, Periodic c (E d)) (pρ : Periodic c ρ)
    (hE : ∀ d : Fin 3, Owns c σ (EX + d) (E d)) (hr : Owns c rho 0 ρ) :
    ∃ τ, marderLoop c g w diff rho junk σ = some τ ∧
      (∀ d : Fin 3, Owns c τ (EX + d)
        (fun x => E d x + 1/2 * g.dt * diff * grad g.act g.dx (fun y => divE g.act g.dx E y - ρ y) d x)) ∧
      (∀ m, (m < EX ∨ EX + 3 ≤ m) → ∀ r p, c.D.Has r p → ∀ n, τ r p (m, n) = σ r p (m, n)) := by
  obtain ⟨σ1, h1, h1f, h1r⟩ := fillAll_spec h EX (EX + 3) (by omega) σ
  have hE1 : ∀ d : Fin 3, Holds c σ1 (EX + d) (E d) := fun d =>
    h1f (EX + d) (E d) (by omega) (by have := d.2; omega) (pE d) (hE d)
  obtain ⟨σ2, h2, h2f, -⟩ := fillAll_spec h 0 1 (by omega) (residual g w rho junk σ1)
  have hR := h2f 0 _ (le_refl _) (by omega)
    (fun x y hxy => by rw [Periodic.divE pE g.act g.dx x y hxy, pρ x y hxy]) (residual_owns h hw hE1 hr (junk := junk))
  refine ⟨correct g diff σ2 σ1, ?_, ?_, ?_⟩
  · simp only [marderLoop, h1, h2, Option.bind_eq_bind, Option.bind_some]
  · intro d
    exact correct_E h diff σ2 σ1 E _ (fun d => (hE1 d).owns h.ok) hR d
  · intro m hm r p hp n
    rw [correct_other g diff σ2 σ1 r p m n hm, h1r m hm r p hp n]

/-- the global effect of `n` iterations -/
def marderE (g : GridP K) (diff : K) (ρ : I3 → K) : ℕ → VF K → VF K
  | 0, E => E
  | n + 1, E => marderE g diff ρ n
      (fun d x => E d x + 1/2 * g.dt * diff * grad g.act g.dx (fun y => divE g.act g.dx E y - ρ y) d x)

theorem Periodic.marder1 {c : Cfg} {g : GridP K} {diff : K} {ρ : I3 → K} {E : VF K} (pE : ∀ d, Periodic c (E d))
    (pρ : Periodic c ρ) (d : Fin 3) : Periodic c
      (fun x => E d x + 1/2 * g.dt * diff * grad g.act g.dx (fun y => Yee.divE g.act g.dx E y - ρ y) d x) := by
  intro x y hxy
  have hres : Periodic c (fun y => Yee.divE g.act g.dx E y - ρ y) :=
    fun x y hxy => by simp only; rw [Periodic.divE pE g.act g.dx x y hxy, pρ x y hxy]
  have := hres.dF g.act g.dx d x y hxy
  unfold grad
  simp only
  rw [this, pE d x y hxy]

theorem Periodic.marderE {c : Cfg} {g : GridP K} {diff : K} {ρ : I3 → K} (pρ : Periodic c ρ) (n : ℕ) {E : VF K}
    (pE : ∀ d, Periodic c (E d)) (d : Fin 3) : Periodic c (marderE g diff ρ n E d) := by
  induction n generalizing E with
  | zero => exact pE d
  | succ n ih => exact ih (fun d => Periodic.marder1 pE pρ d)

theorem marderLoops_spec {c : Cfg} {g : GridP K} (h : Fits c g) {w : Walls} (hw : w.None) (diff : K) {rho junk : Glob K}
    {ρ : I3 → K} (pρ : Periodic c ρ) (hr : Owns c rho 0 ρ) (n : ℕ) {σ : Glob K} {E : VF K}
    (pE : ∀ d, Periodic c (E d)) (hE : ∀ d : Fin 3, Owns c σ (EX + d) (E d)) :
    ∃ τ, marderLoops c g w diff rho junk n σ = some τ ∧
      (∀ d : Fin 3, Owns c τ (EX + d) (marderE g diff ρ n E d)) ∧
      (∀ m, (m < EX ∨ EX + 3 ≤ m) → ∀ r p, c.D.Has r p → ∀ n, τ r p (m, n) = σ r p (m, n)) := by
  induction n generalizing σ E with
  | zero => exact ⟨σ, rfl, hE, fun _ _ _ _ _ _ => rfl⟩
  | succ n ih =>
    obtain ⟨σ1, h1, h1e, h1o⟩ := marderLoop_spec h hw diff (junk := junk) pE pρ hE hr
    obtain ⟨τ, h2, h2e, h2o⟩ := ih (fun d => Periodic.marder1 pE pρ d) h1e
    refine ⟨τ, ?_, h2e, ?_⟩
    · simp only [marderLoops, h1, Option.bind_eq_bind, Option.bind_some]; exact h2
    · intro m hm r p hp n
      rw [h2o m hm r p hp n, h1o m hm r p hp n]

theorem correct_gauss_spec {c : Cfg} {g : GridP K} (h : Fits c g) {w : Walls} (hw : w.None) (diffusion_ : K) (loop : ℕ)
    {rho junk : Glob K} {ρ : I3 → K} (pρ : Periodic c ρ) (hr : Owns c rho 0 ρ) {σ : Glob K} {E : VF K}
    (pE : ∀ d, Periodic c (E d)) (hE : ∀ d : Fin 3, Owns c σ (EX + d) (E d)) :
    ∃ τ, correct_gauss c g w diffusion_ loop rho junk σ = some τ ∧
      (∀ d : Fin 3, Holds c τ (EX + d) (marderE g (diffusion g diffusion_) ρ loop E d)) ∧
      (∀ m, (m < EX ∨ EX + 3 ≤ m) → ∀ r p, c.D.Has r p → ∀ n, τ r p (m, n) = σ r p (m, n)) := by
  obtain ⟨σ1, h1, h1e, h1o⟩ := marderLoops_spec h hw (diffusion g diffusion_) pρ hr (junk := junk) loop pE hE
  obtain ⟨τ, h2, h2f, h2r⟩ := fillAll_spec h EX (EX + 3) (by omega) σ1
  refine ⟨τ, ?_, ?_, ?_⟩
  · simp only [correct_gauss, h1, Option.bind_eq_bind, Option.bind_some]; exact h2
  · intro d
    exact h2f (EX + d) _ (by omega) (by have := d.2; omega) (Periodic.marderE pρ loop pE d) (h1e d)
  · intro m hm r p hp n
    rw [h2r m hm r p hp n, h1o m hm r p hp n]

theorem marderE_grad {c : Cfg} {g : GridP K} (diff : K) {ρ : I3 → K} (pρ : Periodic c ρ) (n : ℕ) {E : VF K}
    (pE : ∀ d, Periodic c (E d)) : ∃ φ, Periodic c φ ∧ ∀ d x, marderE g diff ρ n E d x = E d x + grad g.act g.dx φ d x := by
  induction n generalizing E with
  | zero =>
    refine ⟨fun _ => 0, fun _ _ _ => rfl, fun d x => ?_⟩
    simp [marderE, grad, dF]
  | succ n ih =>
    obtain ⟨φ, hφ, h⟩ := ih (E := fun d x => E d x + 1/2 * g.dt * diff *
      grad g.act g.dx (fun y => divE g.act g.dx E y - ρ y) d x) (fun d => Periodic.marder1 pE pρ d)
    refine ⟨fun x => 1/2 * g.dt * diff * (divE g.act g.dx E x - ρ x) + φ x, ?_, ?_⟩
    · intro x y hxy
      simp only
      rw [hφ x y hxy, Periodic.divE pE g.act g.dx x y hxy, pρ x y hxy]
    · intro d x
      rw [marderE, h d x]
      unfold grad dF
      split_ifs <;> ring

/-- A gradient has no curl. -/
theorem curlE_grad (act : Fin 3 → Bool) (dx : R3 K) (E : VF K) (a : K) (φ : I3 → K) (d : Fin 3) (n : I3) :
    curlE act dx (fun d x => E d x + a * grad act dx φ d x) d n = curlE act dx E d n := by
  have comm : ∀ e f : Fin 3, shift (shift n e 1) f 1 = shift (shift n f 1) e 1 := by
    intro e f; funext i; unfold shift; split_ifs <;> ring
  unfold curlE grad dF
  simp only
  rw [comm (d + 1) (d + 2)]
  cases act (d + 1) <;> cases act (d + 2) <;> simp <;> ring

theorem curlE_marderE (g : GridP K) (diff : K) (ρ : I3 → K) (n : ℕ) (E : VF K) (d : Fin 3) (x : I3) :
    curlE g.act g.dx (marderE g diff ρ n E) d x = curlE g.act g.dx E d x := by
  induction n generalizing E with
  | zero => rfl
  | succ n ih => rw [marderE, ih, curlE_grad]

/-! ### Time steps -/

/-- the global effect of the correctors of a step -/
def correctorsE (g : GridP K) (ρ : I3 → K) : List (Corrector K) → VF K → VF K
  | [], E => E
  | m :: ms, E => correctorsE g ρ ms (marderE g (diffusion g m.diffusion_) ρ m.loop E)

theorem Periodic.correctorsE {c : Cfg} {g : GridP K} {ρ : I3 → K} (pρ : Periodic c ρ) (ms : List (Corrector K)) {E : VF K}
    (pE : ∀ d, Periodic c (E d)) (d : Fin 3) : Periodic c (correctorsE g ρ ms E d) := by
  induction ms generalizing E with
  | nil => exact pE d
  | cons m ms ih => exact ih (fun d => Periodic.marderE pρ m.loop pE d)

theorem curlE_correctorsE (g : GridP K) (ρ : I3 → K) (ms : List (Corrector K)) (E : VF K) (d : Fin 3) (x : I3) :
    curlE g.act g.dx (correctorsE g ρ ms E) d x = curlE g.act g.dx E d x := by
  induction ms generalizing E with
  | nil => rfl
  | cons m ms ih => rw [correctorsE, ih, curlE_marderE]

theorem correctors_spec {c : Cfg} {g : GridP K} (h : Fits c g) {ρ : I3 → K} (pρ : Periodic c ρ) (ms : List (Corrector K))
    (hms : ∀ m ∈ ms, Owns c m.rho 0 ρ ∧ m.walls.None) {σ : Glob K} {E : VF K}
    (pE : ∀ d, Periodic c (E d)) (hE : ∀ d : Fin 3, Holds c σ (EX + d) (E d)) :
    ∃ τ, correctors c g ms σ = some τ ∧ (∀ d : Fin 3, Holds c τ (EX + d) (correctorsE g ρ ms E d)) ∧
      (∀ m, (m < EX ∨ EX + 3 ≤ m) → ∀ r p, c.D.Has r p → ∀ n, τ r p (m, n) = σ r p (m, n)) := by
  induction ms generalizing σ E with
  | nil => exact ⟨σ, rfl, hE, fun _ _ _ _ _ _ => rfl⟩
  | cons m ms ih =>
    obtain ⟨hr, hw⟩ := hms m List.mem_cons_self
    obtain ⟨σ1, h1, h1e, h1o⟩ := correct_gauss_spec h hw m.diffusion_ m.loop (junk := m.junk) pρ hr pE
      (fun d => (hE d).owns h.ok)
    obtain ⟨τ, h2, h2e, h2o⟩ := ih (fun m hm => hms m (List.mem_cons_of_mem _ hm))
      (fun d => Periodic.marderE pρ m.loop pE d) h1e
    refine ⟨τ, ?_, h2e, ?_⟩
    · simp only [correctors, h1, Option.bind_eq_bind, Option.bind_some]; exact h2
    · intro m hm r p hp n
      rw [h2o m hm r p hp n, h1o m hm r p hp n]

theorem Holds.congr {c : Cfg} {σ τ : Glob K} {m : ℕ} {G : I3 → K} (h : Holds c σ m G)
    (e : ∀ r p, c.D.Has r p → ∀ n, τ r p (m, n) = σ r p (m, n)) : Holds c τ m G := by
  intro r p hp n hn
  rw [e r p hp n]; exact h r p hp n hn

/-- The same, and the current density holds what the particles deposited. -/
theorem fieldStep_spec' {c : Cfg} {g : GridP K} (h : Fits c g) (dep : Glob K) {ρ : I3 → K} (pρ : Periodic c ρ)
    (ms : List (Corrector K)) (hms : ∀ m ∈ ms, Owns c m.rho 0 ρ ∧ m.walls.None) {σ : Glob K} {E H J H1 E1 E2 : VF K}
    (eJ : J = fun d : Fin 3 => total c dep (JXI + d)) (eH1 : H1 = faraday g.act g.dx (1/2 * g.dt) E H)
    (eE1 : E1 = ampere g.act g.dx g.dt E H1 J) (eE2 : E2 = correctorsE g ρ ms E1)
    (pE : ∀ d, Periodic c (E d)) (pH : ∀ d, Periodic c (H d)) (hE : ∀ d : Fin 3, Holds c σ (EX + d) (E d))
    (hH : ∀ d : Fin 3, Holds c σ (HX + d) (H d)) :
    ∃ τ, fieldStep c g dep ms σ = some τ ∧ (∀ d : Fin 3, Holds c τ (EX + d) (E2 d)) ∧
      (∀ d : Fin 3, Holds c τ (HX + d) (faraday g.act g.dx (1/2 * g.dt) E2 H1 d)) ∧
      (∀ d, Periodic c (E2 d)) ∧ (∀ d, Periodic c (faraday g.act g.dx (1/2 * g.dt) E2 H1 d)) ∧
      (∀ d : Fin 3, Holds c τ (JXI + d) (J d)) := by
  have pJ : ∀ d, Periodic c (J d) := fun d => by rw [eJ]; exact total_periodic c dep _
  have pH1 : ∀ d, Periodic c (H1 d) := fun d => by rw [eH1]; exact Periodic.faraday pE pH _ _ _ d
  have pE1 : ∀ d, Periodic c (E1 d) := fun d => by rw [eE1]; exact Periodic.ampere pE pH1 pJ _ _ _ d
  have pE2 : ∀ d, Periodic c (E2 d) := fun d => by rw [eE2]; exact Periodic.correctorsE pρ ms pE1 d
  set s0 : Glob K := fun r p mn => if mn.1 < JXI + 3 then dep r p mn else σ r p mn with hs0
  have e0 : ∀ m, JXI + 3 ≤ m → ∀ r p, c.D.Has r p → ∀ n, s0 r p (m, n) = σ r p (m, n) := by
    intro m hm r p _ n
    simp only [hs0]
    rw [if_neg (by omega)]
  have t0 : ∀ d : Fin 3, total c s0 (JXI + d) = total c dep (JXI + d) := by
    intro d
    funext x
    unfold total
    refine Finset.sum_congr rfl fun rp _ => Finset.sum_congr rfl fun n _ => ?_
    simp only [hs0]
    rw [if_pos (show JXI + (d : ℕ) < JXI + 3 by have := d.2; omega)]
  obtain ⟨s1, h1, a1, r1⟩ := addAll_spec h JXI (JXI + 3) (by omega) s0
  obtain ⟨s2, h2, a2, r2⟩ := fillAll_spec h JXI (JXI + 3) (by omega) s1
  have hJ2 : ∀ d : Fin 3, Holds c s2 (JXI + d) (J d) := by
    intro d
    have hd := d.2
    refine a2 _ _ (by omega) (by omega) (pJ d) ?_
    have := a1 (JXI + d) (by omega) (by omega)
    rw [t0 d] at this
    rw [eJ]; exact this
  have hE2' : ∀ d : Fin 3, Holds c s2 (EX + d) (E d) := by
    intro d
    have hd := d.2
    refine (hE d).congr fun r p hp n => ?_
    have q : JXI + 3 ≤ EX + (d : ℕ) := by unfold JXI EX; omega
    rw [r2 _ (Or.inr q) r p hp n, r1 _ (Or.inr q) r p hp n, e0 _ q r p hp n]
  have hH2' : ∀ d : Fin 3, Holds c s2 (HX + d) (H d) := by
    intro d
    have hd := d.2
    refine (hH d).congr fun r p hp n => ?_
    have q : JXI + 3 ≤ HX + (d : ℕ) := by unfold JXI HX; omega
    rw [r2 _ (Or.inr q) r p hp n, r1 _ (Or.inr q) r p hp n, e0 _ q r p hp n]
  obtain ⟨b3, c3, d3⟩ := pushH_spec h (1/2) s2 E H hE2' hH2'
  rw [← eH1] at b3
  obtain ⟨s4, h4, a4, r4⟩ := fillAll_spec h HX (HX + 3) (by omega) (pushH g (1/2) s2)
  have hH4 : ∀ d : Fin 3, Holds c s4 (HX + d) (H1 d) := fun d => by
    have hd := d.2
    exact a4 _ _ (by omega) (by omega) (pH1 d) (b3 d)
  have hE4 : ∀ d : Fin 3, Holds c s4 (EX + d) (E d) := fun d => by
    have hd := d.2
    exact (c3 d).congr fun r p hp n => r4 _ (Or.inl (by unfold EX HX; omega)) r p hp n
  have hJ4 : ∀ d : Fin 3, Holds c s4 (JXI + d) (J d) := fun d => by
    have hd := d.2
    refine (hJ2 d).congr fun r p hp n => ?_
    rw [r4 _ (Or.inl (by unfold JXI HX; omega)) r p hp n, d3 d r p n]
  obtain ⟨b5, c5, d5⟩ := pushE_spec h 1 s4 E H1 J hE4 hH4 hJ4
  rw [one_mul, ← eE1] at b5
  obtain ⟨s6, h6, a6, r6⟩ := fillAll_spec h EX (EX + 3) (by omega) (pushE g 1 s4)
  have hE6 : ∀ d : Fin 3, Holds c s6 (EX + d) (E1 d) := fun d => by
    have hd := d.2
    exact a6 _ _ (by omega) (by omega) (pE1 d) (b5 d)
  have hH6 : ∀ d : Fin 3, Holds c s6 (HX + d) (H1 d) := fun d =>
    (c5 d).congr fun r p hp n => r6 _ (Or.inr (by unfold EX HX; omega)) r p hp n
  obtain ⟨s7, h7, a7, r7⟩ := correctors_spec h pρ ms hms pE1 hE6
  rw [← eE2] at a7
  have hH7 : ∀ d : Fin 3, Holds c s7 (HX + d) (H1 d) := fun d =>
    (hH6 d).congr fun r p hp n => r7 _ (Or.inr (by unfold EX HX; omega)) r p hp n
  obtain ⟨b8, c8, d8⟩ := pushH_spec h (1/2) s7 E2 H1 a7 hH7
  obtain ⟨s9, h9, a9, r9⟩ := fillAll_spec h HX (HX + 3) (by omega) (pushH g (1/2) s7)
  have pH2 : ∀ d, Periodic c (faraday g.act g.dx (1/2 * g.dt) E2 H1 d) := fun d => Periodic.faraday pE2 pH1 _ _ _ d
  refine ⟨s9, ?_, ?_, ?_, pE2, pH2, ?_⟩
  · simp only [fieldStep, Option.bind_eq_bind]
    rw [← hs0, h1, Option.bind_some, h2, Option.bind_some, h4, Option.bind_some, h6, Option.bind_some, h7,
      Option.bind_some, h9]
  · intro d
    have hd := d.2
    exact (c8 d).congr fun r p hp n => r9 _ (Or.inl (by unfold EX HX; omega)) r p hp n
  · intro d
    have hd := d.2
    exact a9 _ _ (by omega) (by omega) (pH2 d) (b8 d)
  · intro d
    have hd := d.2
    refine (d5 d).congr fun r p hp n => ?_
    rw [r9 _ (Or.inl (by unfold JXI HX; omega)) r p hp n, d8 d r p n, r7 _ (Or.inl (by unfold JXI EX; omega)) r p hp n,
      r6 _ (Or.inl (by unfold JXI EX; omega)) r p hp n]

/-- One step of the code, in terms of global fields. -/
theorem fieldStep_spec {c : Cfg} {g : GridP K} (h : Fits c g) (dep : Glob K) {ρ : I3 → K} (pρ : Periodic c ρ)
    (ms : List (Corrector K)) (hms : ∀ m ∈ ms, Owns c m.rho 0 ρ ∧ m.walls.None) {σ : Glob K} {E H J H1 E1 E2 : VF K}
    (eJ : J = fun d : Fin 3 => total c dep (JXI + d)) (eH1 : H1 = faraday g.act g.dx (1/2 * g.dt) E H)
    (eE1 : E1 = ampere g.act g.dx g.dt E H1 J) (eE2 : E2 = correctorsE g ρ ms E1)
    (pE : ∀ d, Periodic c (E d)) (pH : ∀ d, Periodic c (H d)) (hE : ∀ d : Fin 3, Holds c σ (EX + d) (E d))
    (hH : ∀ d : Fin 3, Holds c σ (HX + d) (H d)) :
    ∃ τ, fieldStep c g dep ms σ = some τ ∧ (∀ d : Fin 3, Holds c τ (EX + d) (E2 d)) ∧
      (∀ d : Fin 3, Holds c τ (HX + d) (faraday g.act g.dx (1/2 * g.dt) E2 H1 d)) ∧
      (∀ d, Periodic c (E2 d)) ∧ (∀ d, Periodic c (faraday g.act g.dx (1/2 * g.dt) E2 H1 d)) := by
  obtain ⟨τ, h1, h2, h3, h4, h5, -⟩ := fieldStep_spec' h dep pρ ms hms eJ eH1 eE1 eE2 pE pH hE hH
  exact ⟨τ, h1, h2, h3, h4, h5⟩

/-- Every storage is held by some global function in the owned cells. -/
theorem exists_owned {c : Cfg} {g : GridP K} (h : Fits c g) (σ : Glob K) (m : ℕ) : ∃ G, Periodic c G ∧ Owns c σ m G := by
  classical
  let Own : I3 → (ℕ × ℕ) × I3 → Prop := fun x y =>
    c.D.Has y.1.1 y.1.2 ∧ Interior c y.2 ∧ phys c y.1.1 y.1.2 y.2 = wrap c x
  refine ⟨fun x => if hx : ∃ y, Own x y then σ hx.choose.1.1 hx.choose.1.2 (m, hx.choose.2) else 0, ?_, ?_⟩
  · intro x y hxy
    have : Own x = Own y := by funext z; simp only [Own, hxy]
    simp only [this]
  · intro r p hp n hn
    have hx : ∃ y, Own (fun d => c.off r p d + n d) y := ⟨((r, p), n), hp, hn, rfl⟩
    obtain ⟨y0, hy0, huniq⟩ := C27_unique_owner c h.ok h.c_pos r p n hp (interior_stored h.ok hn)
      (h.inDomain hp (interior_stored h.ok hn))
    have hc := hx.choose_spec
    have e1 := huniq hx.choose ⟨hc.1, hc.2.1, hc.2.2⟩
    have e2 := huniq ((r, p), n) ⟨hp, hn, rfl⟩
    simp only
    rw [dif_pos hx, e1, ← e2]

end

section
variable {K : Type} [Field K] [LinearOrder K] [IsStrictOrderedRing K]

/-- a global node of the grid, up to periodic wrap: only active coordinates differ from zero -/
def Active (g : GridP K) (x : I3) : Prop := ∀ d, g.inv d = true → x d = 0

theorem Active.shift {g : GridP K} {x : I3} (h : Active g x) {d : Fin 3} (hd : g.inv d = false) (s : ℤ) :
    Active g (shift x d s) := by
  intro e he
  unfold Yee.shift
  rw [if_neg (by rintro rfl; rw [hd] at he; cases he)]
  exact h e he

theorem Fits.active_off {c : Cfg} {g : GridP K} (h : Fits c g) {r p : ℕ} (hp : c.D.Has r p) {n : I3}
    (hn : Interior c n) : Active g (fun d => c.off r p d + n d) := by
  intro d hd
  have h1 := h.inv d hd
  have h2 := (C25_idx3_owner c.D h.ok.valid r p hp).1 d
  have h3 := hn d
  rw [h.ldims, h1.1] at h3
  rw [h1.2.1] at h2
  simp only [Cfg.off]
  have : c.D.idx3 r p d = 0 := by omega
  rw [this]
  simp only [Nat.cast_zero, zero_mul]
  omega

/-- every node of the grid belongs to a patch -/
theorem Fits.cover {c : Cfg} {g : GridP K} (h : Fits c g) (hnp : ∀ d, 0 < c.D.np d) {x : I3} (hx : Active g x) :
    ∃ r p n, c.D.Has r p ∧ Interior c n ∧ wrap c (fun d => c.off r p d + n d) = wrap c x := by
  have hL := h.c_pos
  have hg : ∀ d, 0 < c.gdims d := fun d => by
    unfold Cfg.gdims; exact mul_pos (by exact_mod_cast hnp d) (hL d)
  set y : I3 := fun d => x d % c.gdims d with hy
  have y0 : ∀ d, 0 ≤ y d := fun d => Int.emod_nonneg _ (hg d).ne'
  have y1 : ∀ d, y d < c.gdims d := fun d => Int.emod_lt_of_pos _ (hg d)
  have q0 : ∀ d, 0 ≤ y d / c.ldims d := fun d => Int.ediv_nonneg (y0 d) (hL d).le
  have q1 : ∀ d, y d / c.ldims d < c.D.np d := fun d => Int.ediv_lt_of_lt_mul (hL d) (y1 d)
  obtain ⟨r, p, -, hp, hi⟩ := C25_owner_idx3 c.D h.ok.valid (fun d => (y d / c.ldims d).toNat) (by
    intro d; have := q0 d; have := q1 d; show (y d / c.ldims d).toNat < c.D.np d; omega)
  refine ⟨r, p, fun d => y d % c.ldims d, hp, fun d => ⟨Int.emod_nonneg _ (hL d).ne', Int.emod_lt_of_pos _ (hL d)⟩, ?_⟩
  have e : (fun d => c.off r p d + y d % c.ldims d) = y := by
    funext d
    simp only [Cfg.off, hi]
    rw [Int.toNat_of_nonneg (q0 d)]
    exact Int.ediv_mul_add_emod (y d) (c.ldims d)
  rw [e]
  funext d
  unfold wrap
  split_ifs with hb
  · simp [hy]
  · cases hd : g.inv d with
    | false => exact absurd (h.act d hd).1 hb
    | true => simp only [hy]; rw [hx d hd]; simp

/-- The residual after an iteration is an average of residuals before. -/
theorem marder1_bound (g : GridP K) (hdx : ∀ d, g.dx d ≠ 0) (hdt : g.dt ≠ 0) (hact : ∃ d, g.inv d = false) (s : K)
    (h0 : 0 ≤ s) (h1 : s ≤ 1) (ρ : I3 → K) (E : VF K) (M : K) (hM : ∀ x, Active g x → |divE g.act g.dx E x - ρ x| ≤ M) (x : I3)
    (hx : Active g x) : |divE g.act g.dx (fun d x => E d x + 1/2 * g.dt * diffusion g s *
      grad g.act g.dx (fun y => divE g.act g.dx E y - ρ y) d x) x - ρ x| ≤ M := by
  set R : I3 → K := fun y => divE g.act g.dx E y - ρ y with hR
  set w : Fin 3 → K := fun d => if g.inv d then 0 else 1 / g.dx d * (1 / g.dx d) with hw
  have hw0 : ∀ d, 0 ≤ w d := by
    intro d; simp only [hw]; split_ifs
    · exact le_refl _
    · exact mul_self_nonneg _
  have hsum : 0 < w 0 + w 1 + w 2 := by
    obtain ⟨d, hd⟩ := hact
    have : 0 < w d := by
      simp only [hw, hd]
      have := mul_self_pos.2 (one_div_ne_zero (hdx d))
      simpa using this
    have a0 := hw0 0; have a1 := hw0 1; have a2 := hw0 2
    fin_cases d <;> simp only [Fin.zero_eta, Fin.isValue, Fin.mk_one, Fin.reduceFinMk] at this <;> linarith
  have hD : 1/2 * g.dt * diffusion g s = s / 2 / (w 0 + w 1 + w 2) := by
    have : diffusion g s = 1 / 2 / (1/2 * g.dt) / (w 0 + w 1 + w 2) * s := by
      unfold diffusion
      rw [foldl_fin3]
      simp only [hw]
      congr 2
      cases g.inv 0 <;> cases g.inv 1 <;> cases g.inv 2 <;> simp
    rw [this]
    have := hsum.ne'
    field_simp
  have hback : ∀ (n : I3) d, shift (shift n d (-1)) d 1 = n := by
    intro n d; funext e; unfold shift; split_ifs <;> ring
  have hdiv : divE g.act g.dx (fun d x => E d x + 1/2 * g.dt * diffusion g s * grad g.act g.dx R d x) x =
      divE g.act g.dx E x + s / 2 / (w 0 + w 1 + w 2) *
        (w 0 * (R (shift x 0 1) - R x - (R x - R (shift x 0 (-1)))) +
         w 1 * (R (shift x 1 1) - R x - (R x - R (shift x 1 (-1)))) +
         w 2 * (R (shift x 2 1) - R x - (R x - R (shift x 2 (-1))))) := by
    rw [hD]
    generalize s / 2 / (w 0 + w 1 + w 2) = a
    have one : ∀ d : Fin 3, dB g.act g.dx (fun x => E d x + a * grad g.act g.dx R d x) d x =
        dB g.act g.dx (E d) d x + a * (w d * (R (shift x d 1) - R x - (R x - R (shift x d (-1))))) := by
      intro d
      have := hdx d
      simp only [hw]
      unfold dB grad dF GridP.act
      simp only
      rw [hback]
      cases g.inv d
      · simp only [Bool.not_false, if_true, Bool.false_eq_true, if_false]
        field_simp
        ring
      · simp
    unfold divE
    rw [one, one, one]
    ring
  rw [hdiv]
  set W := w 0 + w 1 + w 2 with hW
  have e : divE g.act g.dx E x + s / 2 / W *
        (w 0 * (R (shift x 0 1) - R x - (R x - R (shift x 0 (-1)))) +
         w 1 * (R (shift x 1 1) - R x - (R x - R (shift x 1 (-1)))) +
         w 2 * (R (shift x 2 1) - R x - (R x - R (shift x 2 (-1))))) - ρ x =
      (1 - s) * R x + s / 2 / W * (w 0 * (R (shift x 0 1) + R (shift x 0 (-1))) +
        w 1 * (R (shift x 1 1) + R (shift x 1 (-1))) + w 2 * (R (shift x 2 1) + R (shift x 2 (-1)))) := by
    have hWW : s / 2 / W * (w 0 + w 1 + w 2) = s / 2 := by rw [← hW]; field_simp
    have hRx : divE g.act g.dx E x = R x + ρ x := by simp only [hR]; ring
    rw [hRx]
    linear_combination (-2 * R x) * hWW
  rw [e]
  have hk : 0 ≤ s / 2 / W := by positivity
  have b : ∀ y, Active g y → -M ≤ R y ∧ R y ≤ M := fun y hy => abs_le.1 (hM y hy)
  have bs : ∀ d s, g.inv d = false → -M ≤ R (shift x d s) ∧ R (shift x d s) ≤ M := fun d s hd => b _ (hx.shift hd s)
  have hsM : s / 2 / W * (w 0 * (2 * M) + w 1 * (2 * M) + w 2 * (2 * M)) = s * M := by
    rw [show w 0 * (2 * M) + w 1 * (2 * M) + w 2 * (2 * M) = W * (2 * M) by rw [hW]; ring]
    field_simp
  have up : w 0 * (R (shift x 0 1) + R (shift x 0 (-1))) + w 1 * (R (shift x 1 1) + R (shift x 1 (-1))) +
      w 2 * (R (shift x 2 1) + R (shift x 2 (-1))) ≤ w 0 * (2 * M) + w 1 * (2 * M) + w 2 * (2 * M) := by
    have t : ∀ d : Fin 3, w d * (R (shift x d 1) + R (shift x d (-1))) ≤ w d * (2 * M) := by
      intro d
      cases hd : g.inv d with
      | true => simp only [hw, hd, if_true, zero_mul, le_refl]
      | false => exact mul_le_mul_of_nonneg_left (by linarith [(bs d 1 hd).2, (bs d (-1) hd).2]) (hw0 d)
    linarith [t 0, t 1, t 2]
  have lo : -(w 0 * (2 * M) + w 1 * (2 * M) + w 2 * (2 * M)) ≤ w 0 * (R (shift x 0 1) + R (shift x 0 (-1))) +
      w 1 * (R (shift x 1 1) + R (shift x 1 (-1))) + w 2 * (R (shift x 2 1) + R (shift x 2 (-1))) := by
    have t : ∀ d : Fin 3, w d * (-(2 * M)) ≤ w d * (R (shift x d 1) + R (shift x d (-1))) := by
      intro d
      cases hd : g.inv d with
      | true => simp only [hw, hd, if_true, zero_mul, le_refl]
      | false => exact mul_le_mul_of_nonneg_left (by linarith [(bs d 1 hd).1, (bs d (-1) hd).1]) (hw0 d)
    linarith [t 0, t 1, t 2]
  have up' := mul_le_mul_of_nonneg_left up hk
  have lo' := mul_le_mul_of_nonneg_left lo hk
  rw [mul_neg, hsM] at lo'
  rw [hsM] at up'
  have r1 : (1 - s) * R x ≤ (1 - s) * M := mul_le_mul_of_nonneg_left (b x hx).2 (by linarith)
  have r2 : (1 - s) * (-M) ≤ (1 - s) * R x := mul_le_mul_of_nonneg_left (b x hx).1 (by linarith)
  rw [abs_le]
  constructor <;> linarith

theorem marderE_bound (g : GridP K) (hdx : ∀ d, g.dx d ≠ 0) (hdt : g.dt ≠ 0) (hact : ∃ d, g.inv d = false) (s : K)
    (h0 : 0 ≤ s) (h1 : s ≤ 1) (ρ : I3 → K) (n : ℕ) (E : VF K) (M : K) (hM : ∀ x, Active g x → |divE g.act g.dx E x - ρ x| ≤ M)
    (x : I3) (hx : Active g x) : |divE g.act g.dx (marderE g (diffusion g s) ρ n E) x - ρ x| ≤ M := by
  induction n generalizing E with
  | zero => exact hM x hx
  | succ n ih => exact ih _ (marder1_bound g hdx hdt hact s h0 h1 ρ E M hM)

theorem correctorsE_bound (g : GridP K) (hdx : ∀ d, g.dx d ≠ 0) (hdt : g.dt ≠ 0) (hact : ∃ d, g.inv d = false)
    (ρ : I3 → K) (ms : List (Corrector K)) (hms : ∀ m ∈ ms, 0 ≤ m.diffusion_ ∧ m.diffusion_ ≤ 1) (E : VF K) (M : K)
    (hM : ∀ x, Active g x → |divE g.act g.dx E x - ρ x| ≤ M) (x : I3)
    (hx : Active g x) : |divE g.act g.dx (correctorsE g ρ ms E) x - ρ x| ≤ M := by
  induction ms generalizing E with
  | nil => exact hM x hx
  | cons m ms ih =>
    have := hms m List.mem_cons_self
    exact ih (fun m hm => hms m (List.mem_cons_of_mem _ hm)) _
      (marderE_bound g hdx hdt hact m.diffusion_ this.1 this.2 ρ m.loop E M hM)

theorem has_np {c : Cfg} {g : GridP K} (h : Fits c g) {r p : ℕ} (hp : c.D.Has r p) (d : Fin 3) : 0 < c.D.np d := by
  have := (C25_idx3_owner c.D h.ok.valid r p hp).1 d; omega

/-- A bound on the residual at the nodes of all patches holds at all nodes of the grid. -/
theorem residual_global {c : Cfg} {g : GridP K} (h : Fits c g) {σ rho : Glob K} {E : VF K} {ρ : I3 → K} {M : K}
    (hE : ∀ d : Fin 3, Holds c σ (EX + d) (E d)) (pE : ∀ d, Periodic c (E d)) (pρ : Periodic c ρ) (hr : Owns c rho 0 ρ)
    (hM : ∀ r p, c.D.Has r p → ∀ n, Interior c n → |div_nc g (σ r p) n - rho r p (0, n)| ≤ M)
    (hnp : ∀ d, 0 < c.D.np d) (x : I3) (hx : Active g x) : |divE g.act g.dx E x - ρ x| ≤ M := by
  obtain ⟨r, p, n, hp, hn, hw⟩ := h.cover hnp hx
  have := hM r p hp n hn
  rw [div_nc_spec h hE hp hn, hr r p hp n hn] at this
  rwa [← Periodic.divE pE g.act g.dx _ _ hw, ← pρ _ _ hw]

end

end Psc.FieldStep
