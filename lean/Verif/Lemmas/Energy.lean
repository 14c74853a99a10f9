import Verif.Spec.Energy
import Verif.Lemmas.FieldStep

/-!
# Energy of the field push
-/

namespace Psc.FieldStep

open Domain Fields Ddc Spec Yee Props

section
variable {K : Type} [Field K]

/-- all cells of the domain -/
def globalCells (c : Cfg) : Finset I3 := Fintype.piFinset fun d => Finset.Ico 0 (c.gdims d)

theorem mem_globalCells {c : Cfg} {x : I3} : x ∈ globalCells c ↔ ∀ d, 0 ≤ x d ∧ x d < c.gdims d := by
  simp [globalCells, Fintype.mem_piFinset]

theorem sumCells_global {c : Cfg} (hc : c.Ok) (hL : ∀ d, 0 < c.ldims d) (f : I3 → K) :
    sumCells c (fun r p n => f (fun d => c.off r p d + n d)) = ∑ x ∈ globalCells c, f x := by
  unfold sumCells
  rw [← Finset.sum_product' (patches c.D) (ownedCells c) fun rp n => f (fun d => c.off rp.1 rp.2 d + n d)]
  refine Finset.sum_nbij (fun y => fun d => c.off y.1.1 y.1.2 d + y.2 d) ?_ ?_ ?_ (fun _ _ => rfl)
  · rintro ⟨⟨r, p⟩, n⟩ hy
    rw [Finset.mem_product, mem_patches, mem_owned] at hy
    rw [mem_globalCells]
    intro d
    have h1 := (C25_idx3_owner c.D hc.valid r p hy.1).1 d
    have h2 := hy.2 d
    have h3 : (0 : ℤ) ≤ (c.D.idx3 r p d : ℤ) * c.ldims d := mul_nonneg (by omega) (hL d).le
    have h4 : ((c.D.idx3 r p d : ℤ) + 1) * c.ldims d ≤ c.D.np d * c.ldims d :=
      mul_le_mul_of_nonneg_right (by omega) (hL d).le
    simp only [Cfg.off, Cfg.gdims] at *
    constructor <;> linarith
  · rintro ⟨⟨r, p⟩, n⟩ hy ⟨⟨r', p'⟩, n'⟩ hy' e
    have hy := Finset.mem_coe.1 hy
    have hy' := Finset.mem_coe.1 hy'
    rw [Finset.mem_product, mem_patches, mem_owned] at hy hy'
    have key : ∀ d, c.D.idx3 r p d = c.D.idx3 r' p' d ∧ n d = n' d := by
      intro d
      have e := congrFun e d
      have h1 := hy.2 d; have h2 := hy'.2 d
      simp only [Cfg.off] at e
      have q : ∀ (i : ℕ) (m : ℤ), 0 ≤ m → m < c.ldims d → ((i : ℤ) * c.ldims d + m) / c.ldims d = i := by
        intro i m m0 m1
        rw [add_comm, Int.add_mul_ediv_right _ _ (hL d).ne', Int.ediv_eq_zero_of_lt m0 m1, zero_add]
      have e1 := q (c.D.idx3 r p d) (n d) h1.1 h1.2
      have e2 := q (c.D.idx3 r' p' d) (n' d) h2.1 h2.2
      rw [e, e2] at e1
      have e3 : c.D.idx3 r p d = c.D.idx3 r' p' d := by exact_mod_cast e1.symm
      rw [e3] at e
      exact ⟨e3, by linarith⟩
    have o1 := (C25_idx3_owner c.D hc.valid r p hy.1).2
    have o2 := (C25_idx3_owner c.D hc.valid r' p' hy'.1).2
    rw [funext fun d => (key d).1, o2] at o1
    have : n = n' := funext fun d => (key d).2
    rw [this, Option.some.inj o1]
  · intro x hx
    have hx := mem_globalCells.1 (Finset.mem_coe.1 hx)
    have q0 : ∀ d, 0 ≤ x d / c.ldims d := fun d => Int.ediv_nonneg (hx d).1 (hL d).le
    have q1 : ∀ d, x d / c.ldims d < c.D.np d := fun d => Int.ediv_lt_of_lt_mul (hL d) (hx d).2
    obtain ⟨r, p, -, hp, hi⟩ := C25_owner_idx3 c.D hc.valid (fun d => (x d / c.ldims d).toNat) (by
      intro d; have := q0 d; have := q1 d; show (x d / c.ldims d).toNat < c.D.np d; omega)
    refine ⟨((r, p), fun d => x d % c.ldims d), Finset.mem_coe.2 (Finset.mem_product.2 ⟨mem_patches.2 hp, mem_owned.2
      fun d => ⟨Int.emod_nonneg _ (hL d).ne', Int.emod_lt_of_pos _ (hL d)⟩⟩), ?_⟩
    funext d
    simp only [Cfg.off, hi]
    rw [Int.toNat_of_nonneg (q0 d)]
    exact Int.ediv_mul_add_emod (x d) (c.ldims d)

theorem sumCells_congr {c : Cfg} {f f' : ℕ → ℕ → I3 → K}
    (h : ∀ r p, c.D.Has r p → ∀ n, Interior c n → f r p n = f' r p n) : sumCells c f = sumCells c f' :=
  Finset.sum_congr rfl fun rp hr => Finset.sum_congr rfl fun n hn => h rp.1 rp.2 (mem_patches.1 hr) n (mem_owned.1 hn)

/-- sum over the domain -/
def gsum (c : Cfg) (f : I3 → K) : K := ∑ x ∈ globalCells c, f x

theorem gsum_shift {c : Cfg} {f : I3 → K} (hf : Periodic c f) {d : Fin 3} (hd : c.D.bc d = true) (s : ℤ) :
    gsum c (fun x => f (shift x d s)) = gsum c f := by
  have hm : ∀ s, ∀ x ∈ globalCells c, wrap c (shift x d s) ∈ globalCells c := by
    intro s x hx
    rw [mem_globalCells] at *
    intro e
    have he := hx e
    unfold wrap
    split_ifs with h1
    · exact ⟨Int.emod_nonneg _ (by omega), Int.emod_lt_of_pos _ (by omega)⟩
    · unfold Yee.shift
      rw [if_neg (by rintro rfl; exact h1 hd)]; exact he
  have hi : ∀ s, ∀ x ∈ globalCells c, wrap c (shift (wrap c (shift x d s)) d (-s)) = x := by
    intro s x hx
    rw [mem_globalCells] at hx
    rw [wrap_shift (wrap_wrap c (shift x d s)) d (-s)]
    have : shift (shift x d s) d (-s) = x := by
      funext e; unfold shift; split_ifs <;> ring
    rw [this]
    funext e
    unfold wrap
    split_ifs
    · exact Int.emod_eq_of_lt (hx e).1 (hx e).2
    · rfl
  unfold gsum
  refine Finset.sum_nbij' (fun x => wrap c (shift x d s)) (fun x => wrap c (shift x d (-s))) (hm s) (hm (-s)) (hi s)
    (fun x hx => ?_) (fun x _ => (hf _ _ (wrap_wrap c _).symm))
  have := hi (-s) x hx
  rwa [neg_neg] at this

theorem gsum_add (c : Cfg) (f g : I3 → K) : gsum c (fun x => f x + g x) = gsum c f + gsum c g := Finset.sum_add_distrib
theorem gsum_sub (c : Cfg) (f g : I3 → K) : gsum c (fun x => f x - g x) = gsum c f - gsum c g := Finset.sum_sub_distrib _ _
theorem gsum_mul (c : Cfg) (a : K) (f : I3 → K) : gsum c (fun x => a * f x) = a * gsum c f := (Finset.mul_sum _ _ _).symm

theorem Periodic.mul {c : Cfg} {f g : I3 → K} (hf : Periodic c f) (hg : Periodic c g) : Periodic c (fun x => f x * g x) :=
  fun x y h => by simp only [hf x y h, hg x y h]

theorem Periodic.shift {c : Cfg} {f : I3 → K} (hf : Periodic c f) (d : Fin 3) (s : ℤ) : Periodic c (fun x => f (shift x d s)) :=
  fun x y h => hf _ _ (wrap_shift h d s)

theorem shift_back (x : I3) (d : Fin 3) (s : ℤ) : shift (shift x d s) d (-s) = x := by
  funext e; unfold Yee.shift; split_ifs <;> ring

/-- all active directions are periodic -/
def PerAct (c : Cfg) (act : Fin 3 → Bool) : Prop := ∀ d, act d = true → c.D.bc d = true

/-- inner product -/
def ip (c : Cfg) (f g : I3 → K) : K := gsum c fun x => f x * g x

theorem ip_comm (c : Cfg) (f g : I3 → K) : ip c f g = ip c g f := by
  unfold ip; congr 1; funext x; ring
theorem ip_add (c : Cfg) (f f' g : I3 → K) : ip c (fun x => f x + f' x) g = ip c f g + ip c f' g := by
  unfold ip; rw [← gsum_add]; congr 1; funext x; ring
theorem ip_sub (c : Cfg) (f f' g : I3 → K) : ip c (fun x => f x - f' x) g = ip c f g - ip c f' g := by
  unfold ip; rw [← gsum_sub]; congr 1; funext x; ring
theorem ip_add' (c : Cfg) (f g g' : I3 → K) : ip c f (fun x => g x + g' x) = ip c f g + ip c f g' := by
  rw [ip_comm, ip_add, ip_comm c g, ip_comm c g']
theorem ip_sub' (c : Cfg) (f g g' : I3 → K) : ip c f (fun x => g x - g' x) = ip c f g - ip c f g' := by
  rw [ip_comm, ip_sub, ip_comm c g, ip_comm c g']
theorem ip_mul (c : Cfg) (a : K) (f g : I3 → K) : ip c (fun x => a * f x) g = a * ip c f g := by
  unfold ip; rw [← gsum_mul]; congr 1; funext x; ring
theorem ip_mul' (c : Cfg) (a : K) (f g : I3 → K) : ip c f (fun x => a * g x) = a * ip c f g := by
  rw [ip_comm, ip_mul, ip_comm]

variable {c : Cfg} {act : Fin 3 → Bool} {dx : R3 K}

theorem ip_dF (hp : PerAct c act) {f g : I3 → K} (hf : Periodic c f) (hg : Periodic c g) (d : Fin 3) :
    ip c (dF act dx f d) g = - ip c f (dB act dx g d) := by
  unfold ip dF dB
  by_cases h : act d = true
  · simp only [h, if_true]
    have e := gsum_shift (hf.mul (hg.shift d (-1))) (hp d h) 1
    simp only [shift_back] at e
    have e1 : gsum c (fun x => (f (Yee.shift x d 1) - f x) / dx d * g x) =
        1 / dx d * gsum c (fun x => f (Yee.shift x d 1) * g x) - 1 / dx d * gsum c (fun x => f x * g x) := by
      rw [← mul_sub, ← gsum_sub, ← gsum_mul]; congr 1; funext x; ring
    have e2 : gsum c (fun x => f x * ((g x - g (Yee.shift x d (-1))) / dx d)) =
        1 / dx d * gsum c (fun x => f x * g x) - 1 / dx d * gsum c (fun x => f x * g (Yee.shift x d (-1))) := by
      rw [← mul_sub, ← gsum_sub, ← gsum_mul]; congr 1; funext x; ring
    rw [e1, e2, e]; ring
  · simp [h, gsum]

theorem ip_dB (hp : PerAct c act) {f g : I3 → K} (hf : Periodic c f) (hg : Periodic c g) (d : Fin 3) :
    ip c (dB act dx f d) g = - ip c f (dF act dx g d) := by
  rw [ip_comm c f, ip_dF hp hg hf, neg_neg, ip_comm]

theorem dF_dB_comm (f : I3 → K) (a b : Fin 3) : dF act dx (dB act dx f a) b = dB act dx (dF act dx f b) a := by
  funext x
  unfold dF dB
  split_ifs <;> simp [shift_comm x a b]
  ring

theorem ip_cross (hp : PerAct c act) {f g : I3 → K} (hf : Periodic c f) (hg : Periodic c g) (a b : Fin 3) :
    ip c (dF act dx f a) (dF act dx g b) = ip c (dB act dx f b) (dB act dx g a) := by
  rw [ip_dF hp hf (hg.dF act dx b), ip_dB hp hf (hg.dB act dx a), dF_dB_comm]

/-- inner product of vector fields -/
def vip (c : Cfg) (E F : VF K) : K := ip c (E 0) (F 0) + ip c (E 1) (F 1) + ip c (E 2) (F 2)

theorem curl_adj (hp : PerAct c act) {E H : VF K} (pE : ∀ d, Periodic c (E d)) (pH : ∀ d, Periodic c (H d)) :
    vip c (curlE act dx E) H = vip c E (curlH act dx H) := by
  have e : ∀ d, ip c (curlE act dx E d) (H d) = - ip c (E (d + 2)) (dB act dx (H d) (d + 1)) + ip c (E (d + 1)) (dB act dx (H d) (d + 2)) := by
    intro d
    show ip c (fun n => dF act dx (E (d + 2)) (d + 1) n - dF act dx (E (d + 1)) (d + 2) n) (H d) = _
    rw [ip_sub, ip_dF hp (pE _) (pH _), ip_dF hp (pE _) (pH _)]; ring
  have e' : ∀ d, ip c (E d) (curlH act dx H d) = ip c (E d) (dB act dx (H (d + 2)) (d + 1)) - ip c (E d) (dB act dx (H (d + 1)) (d + 2)) := by
    intro d
    exact ip_sub' _ _ _ _
  unfold vip
  rw [e, e, e, e', e', e']
  show - ip c (E 2) (dB act dx (H 0) 1) + ip c (E 1) (dB act dx (H 0) 2) + (- ip c (E 0) (dB act dx (H 1) 2) + ip c (E 2) (dB act dx (H 1) 0))
      + (- ip c (E 1) (dB act dx (H 2) 0) + ip c (E 0) (dB act dx (H 2) 1)) =
    ip c (E 0) (dB act dx (H 2) 1) - ip c (E 0) (dB act dx (H 1) 2) + (ip c (E 1) (dB act dx (H 0) 2) - ip c (E 1) (dB act dx (H 2) 0))
      + (ip c (E 2) (dB act dx (H 1) 0) - ip c (E 2) (dB act dx (H 0) 1))
  ring

theorem vip_comm (E F : VF K) : vip c E F = vip c F E := by
  unfold vip; rw [ip_comm c (E 0), ip_comm c (E 1), ip_comm c (E 2)]

/-- `|curl E|² + |div E|²` is the sum of the squares of all differences of all components. -/
theorem curl_sq (hp : PerAct c act) {E : VF K} (pE : ∀ d, Periodic c (E d)) :
    vip c (curlE act dx E) (curlE act dx E) + ip c (divE act dx E) (divE act dx E) =
      ∑ a : Fin 3, ∑ b : Fin 3, ip c (dF act dx (E b) a) (dF act dx (E b) a) := by
  have e : ∀ d, ip c (curlE act dx E d) (curlE act dx E d) =
      ip c (dF act dx (E (d + 2)) (d + 1)) (dF act dx (E (d + 2)) (d + 1)) + ip c (dF act dx (E (d + 1)) (d + 2)) (dF act dx (E (d + 1)) (d + 2))
      - 2 * ip c (dB act dx (E (d + 2)) (d + 2)) (dB act dx (E (d + 1)) (d + 1)) := by
    intro d
    rw [← ip_cross hp (pE _) (pE _)]
    show ip c (fun n => dF act dx (E (d + 2)) (d + 1) n - dF act dx (E (d + 1)) (d + 2) n)
      (fun n => dF act dx (E (d + 2)) (d + 1) n - dF act dx (E (d + 1)) (d + 2) n) = _
    rw [ip_sub, ip_sub', ip_sub', ip_comm c (dF act dx (E (d + 1)) (d + 2)) (dF act dx (E (d + 2)) (d + 1))]
    ring
  have e' : ip c (divE act dx E) (divE act dx E) = ip c (dF act dx (E 0) 0) (dF act dx (E 0) 0) + ip c (dF act dx (E 1) 1) (dF act dx (E 1) 1)
      + ip c (dF act dx (E 2) 2) (dF act dx (E 2) 2) + 2 * ip c (dB act dx (E 2) 2) (dB act dx (E 1) 1)
      + 2 * ip c (dB act dx (E 0) 0) (dB act dx (E 2) 2) + 2 * ip c (dB act dx (E 1) 1) (dB act dx (E 0) 0) := by
    rw [ip_cross hp (pE 0) (pE 0), ip_cross hp (pE 1) (pE 1), ip_cross hp (pE 2) (pE 2)]
    show ip c (fun n => dB act dx (E 0) 0 n + dB act dx (E 1) 1 n + dB act dx (E 2) 2 n)
      (fun n => dB act dx (E 0) 0 n + dB act dx (E 1) 1 n + dB act dx (E 2) 2 n) = _
    rw [ip_add c (fun n => dB act dx (E 0) 0 n + dB act dx (E 1) 1 n), ip_add' c _ (fun n => dB act dx (E 0) 0 n + dB act dx (E 1) 1 n),
      ip_add' c _ (fun n => dB act dx (E 0) 0 n + dB act dx (E 1) 1 n), ip_add c (dB act dx (E 0) 0) (dB act dx (E 1) 1),
      ip_add c (dB act dx (E 0) 0) (dB act dx (E 1) 1), ip_add', ip_add', ip_add',
      ip_comm c (dB act dx (E 0) 0) (dB act dx (E 1) 1), ip_comm c (dB act dx (E 1) 1) (dB act dx (E 2) 2),
      ip_comm c (dB act dx (E 2) 2) (dB act dx (E 0) 0)]
    ring
  unfold vip
  rw [e, e, e, e']
  simp only [Fin.sum_univ_three, show (0 : Fin 3) + 1 = 1 from rfl, show (0 : Fin 3) + 2 = 2 from rfl, show (1 : Fin 3) + 1 = 2 from rfl,
    show (1 : Fin 3) + 2 = 0 from rfl, show (2 : Fin 3) + 1 = 0 from rfl, show (2 : Fin 3) + 2 = 1 from rfl]
  ring

/-- energy of the leap-frog scheme, of global fields -/
def leapG (c : Cfg) (act : Fin 3 → Bool) (dx : R3 K) (dt : K) (E H : VF K) : K :=
  vip c E E + vip c H H - (dt / 2) ^ 2 * vip c (curlE act dx E) (curlE act dx E)

theorem vip_lin (a : K) (E F G : VF K) : vip c (fun d x => E d x + a * F d x) G = vip c E G + a * vip c F G := by
  unfold vip
  rw [ip_add, ip_add, ip_add, ip_mul, ip_mul, ip_mul]; ring

theorem vip_lin' (a : K) (E F G : VF K) : vip c G (fun d x => E d x + a * F d x) = vip c G E + a * vip c G F := by
  rw [vip_comm, vip_lin, vip_comm E, vip_comm F]

/-- discrete Poynting theorem for one leap-frog step -/
theorem leapfrog_balance [NeZero (2 : K)] (hp : PerAct c act) (dt : K) {E H J : VF K} (pE : ∀ d, Periodic c (E d)) (pH : ∀ d, Periodic c (H d))
    (pJ : ∀ d, Periodic c (J d)) {H1 E1 H2 : VF K} (e1 : H1 = faraday act dx (1/2 * dt) E H) (e2 : E1 = ampere act dx dt E H1 J)
    (e3 : H2 = faraday act dx (1/2 * dt) E1 H1) :
    leapG c act dx dt E1 H2 - leapG c act dx dt E H = - dt * (vip c J E + vip c J E1) := by
  have pH1 : ∀ d, Periodic c (H1 d) := fun d => by rw [e1]; exact Periodic.faraday pE pH _ _ _ d
  have pE1 : ∀ d, Periodic c (E1 d) := fun d => by rw [e2]; exact Periodic.ampere pE pH1 pJ _ _ _ d
  have a1 := curl_adj (dx := dx) hp pE pH1
  have a2 := curl_adj (dx := dx) hp pE1 pH1
  have f1 : H = fun d x => H1 d x + (1/2 * dt) * curlE act dx E d x := by
    funext d x; rw [e1]; simp only [faraday]; ring
  have f3 : H2 = fun d x => H1 d x + (-(1/2 * dt)) * curlE act dx E1 d x := by
    funext d x; rw [e3]; simp only [faraday]; ring
  have f2 : E1 = fun d x => E d x + dt * (curlH act dx H1 d x + (-1) * J d x) := by
    funext d x; rw [e2]; simp only [ampere]; ring
  have q : ∀ G, vip c E1 G = vip c E G + dt * (vip c (curlH act dx H1) G - vip c J G) := by
    intro G
    conv_lhs => rw [f2]
    rw [vip_lin dt E (fun d x => curlH act dx H1 d x + (-1) * J d x) G, vip_lin]; ring
  have q1 := q E1
  have q2 := q E
  rw [vip_comm E1 E] at q2
  have hH : vip c H H = vip c H1 H1 + dt * vip c (curlE act dx E) H1 + (1/2 * dt)^2 * vip c (curlE act dx E) (curlE act dx E) := by
    rw [f1, vip_lin, vip_lin', vip_lin', vip_comm H1 (curlE act dx E)]
    have : (1 / 2 + 1 / 2 : K) = 1 := by field_simp; norm_num
    linear_combination (dt * vip c (curlE act dx E) H1) * this
  have hH2 : vip c H2 H2 = vip c H1 H1 - dt * vip c (curlE act dx E1) H1 + (1/2 * dt)^2 * vip c (curlE act dx E1) (curlE act dx E1) := by
    rw [f3, vip_lin, vip_lin', vip_lin', vip_comm H1 (curlE act dx E1)]
    have : (1 / 2 + 1 / 2 : K) = 1 := by field_simp; norm_num
    linear_combination (-dt * vip c (curlE act dx E1) H1) * this
  unfold leapG
  rw [hH, hH2, a1, a2, vip_comm E (curlH act dx H1), vip_comm E1 (curlH act dx H1)]
  linear_combination q1 + q2

/-! ### Patches -/

theorem Fits.perAct {g : GridP K} (h : Fits c g) : PerAct c g.act := by
  intro d hd
  have : g.inv d = false := by simpa [GridP.act] using hd
  exact (h.act d this).1

theorem energyE_eq {g : GridP K} (h : Fits c g) {σ : Glob K} {E : VF K} (hE : ∀ d : Fin 3, Holds c σ (EX + d) (E d)) :
    energyE c σ = vip c E E := by
  have : energyE c σ = sumCells c (fun r p n => (fun x => ∑ d : Fin 3, E d x ^ 2) (fun d => c.off r p d + n d)) := by
    refine sumCells_congr fun r p hp n hn => Finset.sum_congr rfl fun d _ => ?_
    rw [hE d r p hp n (interior_stored h.ok hn)]
  rw [this, sumCells_global h.ok h.c_pos (fun x => ∑ d : Fin 3, E d x ^ 2)]
  unfold vip ip
  rw [← gsum_add, ← gsum_add]
  refine Finset.sum_congr rfl fun x _ => ?_
  rw [Fin.sum_univ_three]; ring

theorem energyH_eq {g : GridP K} (h : Fits c g) {σ : Glob K} {H : VF K} (hH : ∀ d : Fin 3, Holds c σ (HX + d) (H d)) :
    energyH c σ = vip c H H := by
  have : energyH c σ = sumCells c (fun r p n => (fun x => ∑ d : Fin 3, H d x ^ 2) (fun d => c.off r p d + n d)) := by
    refine sumCells_congr fun r p hp n hn => Finset.sum_congr rfl fun d _ => ?_
    rw [hH d r p hp n (interior_stored h.ok hn)]
  rw [this, sumCells_global h.ok h.c_pos (fun x => ∑ d : Fin 3, H d x ^ 2)]
  unfold vip ip
  rw [← gsum_add, ← gsum_add]
  refine Finset.sum_congr rfl fun x _ => ?_
  rw [Fin.sum_univ_three]; ring

theorem dF_patch {g : GridP K} (h : Fits c g) {σ : Glob K} {E : VF K} (hE : ∀ d : Fin 3, Holds c σ (EX + d) (E d)) {r p : ℕ}
    (hp : c.D.Has r p) {n : I3} (hn : Interior c n) (a b : Fin 3) :
    dF g.act g.dx (Evf (σ r p) a) b n = dF g.act g.dx (E a) b (fun d => c.off r p d + n d) := by
  unfold dF Evf
  by_cases hb : g.act b = true
  · have hb' : g.inv b = false := by simpa [GridP.act] using hb
    simp only [hb, if_true]
    rw [hE a r p hp n (interior_stored h.ok hn), hE a r p hp _ (h.shift_stored hn hb' (by omega) (by omega)), shift_add]
  · simp [hb]

theorem leapEnergy_eq {g : GridP K} (h : Fits c g) {σ : Glob K} {E H : VF K} (hE : ∀ d : Fin 3, Holds c σ (EX + d) (E d))
    (hH : ∀ d : Fin 3, Holds c σ (HX + d) (H d)) : leapEnergy c g σ = leapG c g.act g.dx g.dt E H := by
  have : (sumCells c fun r p n => ∑ d : Fin 3, Hhalf g (-1) (σ r p) d n * Hhalf g 1 (σ r p) d n) =
      sumCells c (fun r p n => (fun x => ∑ d : Fin 3, (H d x ^ 2 - (g.dt / 2) ^ 2 * curlE g.act g.dx E d x ^ 2)) (fun d => c.off r p d + n d)) := by
    refine sumCells_congr fun r p hp n hn => Finset.sum_congr rfl fun d _ => ?_
    unfold Hhalf curlE
    rw [hH d r p hp n (interior_stored h.ok hn), dF_patch h hE hp hn, dF_patch h hE hp hn]
    ring
  unfold leapEnergy
  rw [energyE_eq h hE, this, sumCells_global h.ok h.c_pos (fun x => ∑ d : Fin 3, (H d x ^ 2 - (g.dt / 2) ^ 2 * curlE g.act g.dx E d x ^ 2))]
  unfold leapG
  rw [add_sub_assoc]
  congr 1
  unfold vip ip
  rw [← gsum_add, ← gsum_add, ← gsum_add, ← gsum_add, ← gsum_mul, ← gsum_sub]
  refine Finset.sum_congr rfl fun x _ => ?_
  rw [Fin.sum_univ_three]; ring

theorem work_eq {g : GridP K} (h : Fits c g) (s : StepIn K) {σ τ : Glob K} {E E' : VF K} (hE : ∀ d : Fin 3, Holds c σ (EX + d) (E d))
    (hE' : ∀ d : Fin 3, Holds c τ (EX + d) (E' d)) :
    work c g s σ τ = g.dt * (vip c (current c s) E + vip c (current c s) E') := by
  have : work c g s σ τ = sumCells c (fun r p n => (fun x => ∑ d : Fin 3, g.dt * current c s d x * (E d x + E' d x)) (fun d => c.off r p d + n d)) := by
    refine sumCells_congr fun r p hp n hn => Finset.sum_congr rfl fun d _ => ?_
    rw [hE d r p hp n (interior_stored h.ok hn), hE' d r p hp n (interior_stored h.ok hn)]
  rw [this, sumCells_global h.ok h.c_pos (fun x => ∑ d : Fin 3, g.dt * current c s d x * (E d x + E' d x))]
  unfold vip ip
  rw [← gsum_add, ← gsum_add, ← gsum_add, ← gsum_add, ← gsum_add, ← gsum_mul]
  refine Finset.sum_congr rfl fun x _ => ?_
  rw [Fin.sum_univ_three]; ring

theorem current_vacuum {s : StepIn K} (hs : Vacuum s) : current c s = fun _ _ => 0 := by
  funext d x
  unfold current total
  simp [hs.2]

end

section
variable {K : Type} [Field K] [LinearOrder K] [IsStrictOrderedRing K] {c : Cfg} {act : Fin 3 → Bool} {dx : R3 K}

theorem step_balance {g : GridP K} (h : Fits c g) (s : StepIn K) (hs : s.ms = []) (σ : Glob K) (E H : VF K)
    (pE : ∀ d, Periodic c (E d)) (pH : ∀ d, Periodic c (H d))
    (hE : ∀ d : Fin 3, Holds c σ (EX + d) (E d)) (hH : ∀ d : Fin 3, Holds c σ (HX + d) (H d)) :
    ∃ (τ : Glob K) (E' H' : VF K), fieldStep c g s.dep s.ms σ = some τ ∧ (∀ d, Periodic c (E' d)) ∧ (∀ d, Periodic c (H' d)) ∧
      (∀ d : Fin 3, Holds c τ (EX + d) (E' d)) ∧ (∀ d : Fin 3, Holds c τ (HX + d) (H' d)) ∧
      leapEnergy c g τ = leapEnergy c g σ - work c g s σ τ := by
  obtain ⟨τ, h1, e1, f1, pe1, pf1⟩ := fieldStep_spec h s.dep (ρ := fun _ => 0) (fun _ _ _ => rfl) s.ms
    (by rw [hs]; simp) rfl rfl rfl rfl pE pH hE hH
  refine ⟨τ, _, _, h1, pe1, pf1, e1, f1, ?_⟩
  rw [leapEnergy_eq h e1 f1, leapEnergy_eq h hE hH, work_eq h s hE e1]
  rw [hs]
  have := leapfrog_balance (dx := g.dx) h.perAct g.dt pE pH (J := current c s) (fun d => total_periodic c s.dep _) rfl rfl rfl
  simp only [correctorsE]
  unfold current at *
  linear_combination this

theorem ip_nonneg (f : I3 → K) : 0 ≤ ip c f f := Finset.sum_nonneg fun _ _ => mul_self_nonneg _

theorem dF_bound (hp : PerAct c act) {f : I3 → K} (hf : Periodic c f) (d : Fin 3) :
    ip c (dF act dx f d) (dF act dx f d) ≤ (if act d then 4 / dx d ^ 2 else 0) * ip c f f := by
  by_cases h : act d = true
  · rw [if_pos h]
    have e := gsum_shift (hf.mul hf) (hp d h) 1
    have : ip c (dF act dx f d) (dF act dx f d) ≤ gsum c (fun x => 2 / dx d ^ 2 * (f (Yee.shift x d 1) * f (Yee.shift x d 1)) + 2 / dx d ^ 2 * (f x * f x)) := by
      refine Finset.sum_le_sum fun x _ => ?_
      unfold dF
      simp only [h, if_true]
      have h2 : 0 ≤ (f (Yee.shift x d 1) + f x) ^ 2 / dx d ^ 2 := by positivity
      have : (f (Yee.shift x d 1) - f x) / dx d * ((f (Yee.shift x d 1) - f x) / dx d) = (f (Yee.shift x d 1) - f x) ^ 2 / dx d ^ 2 := by
        rw [div_mul_div_comm]; ring
      rw [this]
      have : 2 / dx d ^ 2 * (f (Yee.shift x d 1) * f (Yee.shift x d 1)) + 2 / dx d ^ 2 * (f x * f x) =
          (f (Yee.shift x d 1) - f x) ^ 2 / dx d ^ 2 + (f (Yee.shift x d 1) + f x) ^ 2 / dx d ^ 2 := by ring
      rw [this]; linarith
    refine this.trans (le_of_eq ?_)
    rw [gsum_add, gsum_mul, gsum_mul, e]
    unfold ip; ring
  · simp [h, ip, gsum, dF]

theorem curl_bound (hp : PerAct c act) {E : VF K} (pE : ∀ d, Periodic c (E d)) :
    vip c (curlE act dx E) (curlE act dx E) ≤ 4 * (∑ d : Fin 3, if act d then 1 / dx d ^ 2 else 0) * vip c E E := by
  have h1 := curl_sq (dx := dx) hp pE
  have h2 := ip_nonneg (c := c) (divE act dx E)
  have h3 : ∑ a : Fin 3, ∑ b : Fin 3, ip c (dF act dx (E b) a) (dF act dx (E b) a) ≤
      ∑ a : Fin 3, ∑ b : Fin 3, (if act a then 4 / dx a ^ 2 else 0) * ip c (E b) (E b) :=
    Finset.sum_le_sum fun a _ => Finset.sum_le_sum fun b _ => dF_bound hp (pE b) a
  have h4 : ∑ a : Fin 3, ∑ b : Fin 3, (if act a then 4 / dx a ^ 2 else 0) * ip c (E b) (E b) =
      4 * (∑ d : Fin 3, if act d then 1 / dx d ^ 2 else 0) * vip c E E := by
    have : ∀ a, (if act a = true then 4 / dx a ^ 2 else 0) = 4 * (if act a = true then 1 / dx a ^ 2 else 0) := by
      intro a; split_ifs <;> ring
    simp only [this, ← Finset.mul_sum]
    rw [← Finset.sum_mul, ← Finset.mul_sum, Fin.sum_univ_three (fun i => ip c (E i) (E i))]
    rfl
  linarith

end

end Psc.FieldStep
