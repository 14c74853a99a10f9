import Verif.Lemmas.Fields

/-!
# Patches represent a global field
-/

namespace Psc.Fields

open Spec Yee

variable {K : Type*} [Field K]

theorem shift_add (o n : I3) (d : Fin 3) (s : ℤ) :
    (fun e => o e + shift n d s e) = shift (fun e => o e + n e) d s := by
  funext e; simp only [shift]; split_ifs <;> ring

theorem Region.mono {g : GridP K} {l r l' r' : ℤ} {n : I3} (hl : l ≤ l') (hr : r ≤ r')
    (h : Region g l r n) : Region g l' r' n := by
  intro d
  have := h d
  split_ifs at this ⊢ with hd
  · exact this
  · omega

theorem Agree.mono {g : GridP K} {o : I3} {l r l' r' : ℤ} {c : Comp K} {G : I3 → K} (hl : l' ≤ l)
    (hr : r' ≤ r) (h : Agree g o l r c G) : Agree g o l' r' c G :=
  fun n hn => h n (hn.mono hl hr)

theorem Region.shift_dn {g : GridP K} {l r : ℤ} {n : I3} {d : Fin 3} (hd : g.inv d = false)
    (h : Region g l r n) : Region g (l + 1) r (shift n d (-1)) := by
  intro e
  have := h e
  unfold shift
  split_ifs at this ⊢ with h1 h2 <;> first | (subst h2; rw [hd] at h1; exact absurd h1 (by simp)) | omega

theorem Region.shift_up {g : GridP K} {l r : ℤ} {n : I3} {d : Fin 3} (hd : g.inv d = false)
    (h : Region g l r n) : Region g l (r + 1) (shift n d 1) := by
  intro e
  have := h e
  unfold shift
  split_ifs at this ⊢ with h1 h2 <;> first | (subst h2; rw [hd] at h1; exact absurd h1 (by simp)) | omega

theorem dB_agree {g : GridP K} {o : I3} {l r : ℤ} {c : Comp K} {G : I3 → K}
    (h : Agree g o (l + 1) r c G) (d : Fin 3) (n : I3) (hn : Region g l r n) :
    dB g.act g.dx (cv c) d n = dB g.act g.dx G d (fun e => o e + n e) := by
  unfold dB GridP.act
  cases hd : g.inv d
  · simp only [Bool.not_false, if_true]
    rw [h n (hn.mono (by omega) le_rfl), h _ (hn.shift_dn hd), shift_add]
  · simp

theorem dF_agree {g : GridP K} {o : I3} {l r : ℤ} {c : Comp K} {G : I3 → K}
    (h : Agree g o l (r + 1) c G) (d : Fin 3) (n : I3) (hn : Region g l r n) :
    dF g.act g.dx (cv c) d n = dF g.act g.dx G d (fun e => o e + n e) := by
  unfold dF GridP.act
  cases hd : g.inv d
  · simp only [Bool.not_false, if_true]
    rw [h n (hn.mono le_rfl (by omega)), h _ (hn.shift_up hd), shift_add]
  · simp

/-- Patch push of `E` = global Ampère on `[-1, ldims + 2)`. -/
theorem push_E_agree (g : GridP K) (hg : GridOk g) (fac : K) (o : I3) (F : Flds K) (E H J : VF K)
    (hE : ∀ d, Agree g o 1 2 (F.E d) (E d)) (hH : ∀ d, Agree g o 2 2 (F.H d) (H d))
    (hJ : ∀ d, Agree g o 1 2 (F.J d) (J d)) (d : Fin 3) :
    Agree g o 1 2 ((push_E g fac F).E d) (ampere g.act g.dx (fac * g.dt) E H J d) := by
  intro n hn
  rw [(push_E_eq g hg fac F).2.2 d n, if_pos hn]
  simp only [curlH, ampere]
  rw [hE d n hn, hJ d n hn, dB_agree (l := 1) (hH _) _ n hn, dB_agree (l := 1) (hH _) _ n hn]

/-- Patch push of `H` = global Faraday on `[-2, ldims + 1)`. -/
theorem push_H_agree (g : GridP K) (hg : GridOk g) (fac : K) (o : I3) (F : Flds K) (E H : VF K)
    (hE : ∀ d, Agree g o 2 2 (F.E d) (E d)) (hH : ∀ d, Agree g o 2 1 (F.H d) (H d)) (d : Fin 3) :
    Agree g o 2 1 ((push_H g fac F).H d) (faraday g.act g.dx (fac * g.dt) E H d) := by
  intro n hn
  rw [(push_H_eq g hg fac F).2.2 d n, if_pos hn]
  simp only [curlE, faraday]
  rw [hH d n hn, dF_agree (r := 1) (hE _) _ n hn, dF_agree (r := 1) (hE _) _ n hn]
  ring

/-- linearity of the node divergence -/
theorem divE_ampere (act : Fin 3 → Bool) (dx : R3 K) (dt : K) (E H J : VF K) (n : I3) :
    divE act dx (ampere act dx dt E H J) n = divE act dx E n - dt * divE act dx J n := by
  have h := divE_curlH act dx H n
  have lin : divE act dx (ampere act dx dt E H J) n =
      divE act dx E n + dt * (divE act dx (curlH act dx H) n - divE act dx J n) := by
    unfold divE ampere dB
    cases act 0 <;> cases act 1 <;> cases act 2 <;> simp <;> ring
  rw [lin, h]; ring

/-- linearity of the cell divergence -/
theorem divH_faraday (act : Fin 3 → Bool) (dx : R3 K) (dt : K) (E H : VF K) (n : I3) :
    divH act dx (faraday act dx dt E H) n = divH act dx H n := by
  have h := divH_curlE act dx E n
  have lin : divH act dx (faraday act dx dt E H) n =
      divH act dx H n - dt * divH act dx (curlE act dx E) n := by
    unfold divH faraday dF
    cases act 0 <;> cases act 1 <;> cases act 2 <;> simp <;> ring
  rw [lin, h]; ring

end Psc.Fields
