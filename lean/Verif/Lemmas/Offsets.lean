import Verif.Spec.Offsets
import Verif.Lemmas.SetupParticles
import Mathlib.Tactic.FieldSimp
import Mathlib.Tactic.Ring
import Mathlib.Tactic.Linarith
import Mathlib.Tactic.LinearCombination
import Mathlib.Tactic.Positivity
import Mathlib.Tactic.FinCases
import Mathlib.Data.List.Forall2
import Mathlib.Data.Nat.ModEq

/-!
# Lemmas for C84
-/

namespace Psc.Offsets

variable {K : Type} [Field K] [LinearOrder K] [IsStrictOrderedRing K] [FloorRing K]

/-! ## The engine -/

/-- between 1 and `M - 1` -/
def Live (x : ℕ) : Prop := 0 < x ∧ x < M

theorem coprime_a : Nat.Coprime 16807 M := by decide

theorem next_live {x : ℕ} (h : Live x) : Live (next x) := by
  refine ⟨?_, Nat.mod_lt _ (by decide)⟩
  rcases Nat.eq_zero_or_pos (next x) with h0 | h0
  · exfalso
    have hd : M ∣ 16807 * x := Nat.dvd_of_mod_eq_zero h0
    have := (Nat.Coprime.symm coprime_a).dvd_of_dvd_mul_left hd
    exact absurd (Nat.le_of_dvd h.1 this) (by have := h.2; omega)
  · exact h0

theorem seeded_live (s : ℕ) : Live (seeded s) := by
  unfold seeded Live
  have : s % M < M := Nat.mod_lt _ (by decide)
  split_ifs with h
  · decide
  · omega

/-- `x'` is `f` times `x` -/
def Times (f x x' : ℕ) : Prop := Live x ∧ Live x' ∧ x' % M = f * x % M

theorem Times.next {f x x' : ℕ} (h : Times f x x') : Times f (next x) (Offsets.next x') := by
  refine ⟨next_live h.1, next_live h.2.1, ?_⟩
  unfold Offsets.next
  rw [Nat.mod_mod, Nat.mul_mod f, Nat.mod_mod, ← Nat.mul_mod, Nat.mul_mod 16807 x', h.2.2, ← Nat.mul_mod]
  congr 1
  ring

/-- the quotient -/
theorem Times.quot {f x x' : ℕ} (hf : 0 < f) (h : Times f x x') : ∃ k, k < f ∧ f * x = x' + k * M := by
  have h1 := h.2.2
  rw [Nat.mod_eq_of_lt h.2.1.2] at h1
  refine ⟨f * x / M, ?_, ?_⟩
  · rw [Nat.div_lt_iff_lt_mul (by decide)]
    exact Nat.mul_lt_mul_of_pos_left h.1.2 hf
  · rw [h1, Nat.mul_comm _ M]
    exact (Nat.mod_add_div _ _).symm

theorem canonical_bounds (m : ℕ) : ∀ (sum tmp : K) (x : ℕ), Live x → 0 ≤ sum → sum ≤ tmp - 1 → 1 ≤ tmp →
    0 ≤ (canonicalFrom m sum tmp x).1 ∧ (canonicalFrom m sum tmp x).1 < 1 ∧ Live (canonicalFrom m sum tmp x).2 := by
  induction m with
  | zero =>
    intro sum tmp x hx h0 h1 h2
    refine ⟨div_nonneg h0 (by linarith), ?_, hx⟩
    show sum / tmp < 1
    rw [div_lt_one (by linarith)]
    linarith
  | succ m ih =>
    intro sum tmp x hx h0 h1 h2
    have hn := next_live hx
    have n1 : (1 : K) ≤ next x := by exact_mod_cast hn.1
    have n2 : (next x : K) + 1 ≤ M := by exact_mod_cast hn.2
    have hM : (M : K) = 2147483647 := by unfold M; norm_num
    refine ih _ _ _ hn ?_ ?_ ?_
    · have : 0 ≤ ((next x : K) - 1) * tmp := mul_nonneg (by linarith) (by linarith)
      linarith
    · have : ((next x : K) - 1) * tmp ≤ ((M : K) - 2) * tmp := mul_le_mul_of_nonneg_right (by linarith) (by linarith)
      nlinarith
    · rw [hM]; nlinarith

theorem get_bounds (m : ℕ) {a b : K} (hab : b = a + 1) {x : ℕ} (hx : Live x) :
    0 ≤ (get m a b x).1 - a ∧ (get m a b x).1 - a < 1 ∧ Live (get m a b x).2 := by
  obtain ⟨h1, h2, h3⟩ := canonical_bounds (K := K) m 0 1 x hx le_rfl (by linarith) le_rfl
  have e : (get m a b x).1 = (canonicalFrom m 0 1 x).1 * (b - a) + a := rfl
  have e2 : (get m a b x).2 = (canonicalFrom (K := K) m 0 1 x).2 := rfl
  rw [e, e2, hab]
  refine ⟨by linarith, by linarith, h3⟩

/-! ## The particles stay in their cells -/

theorem hi_lo (g : Geo K) : hi g = lo g + 1 := by unfold hi lo; split_ifs <;> norm_num

theorem lo_eq (g : Geo K) : -lo g = if g.cc then 1 / 2 else 0 := by unfold lo; split_ifs <;> simp

/-- what one direction does -/
theorem offsetDir_spec (g : Geo K) (p : Fin 3 → K) {x : ℕ} (hx : Live x) (d : Fin 3) :
    Live (offsetDir g (p, x) d).2 ∧ (∀ i, i ≠ d → (offsetDir g (p, x) d).1 i = p i) ∧
      (g.inv d = true → (offsetDir g (p, x) d).1 d = p d) ∧
      (g.inv d = false → ∃ u, lo g ≤ u ∧ u < hi g ∧ (offsetDir g (p, x) d).1 d = p d + u * g.dx d) := by
  unfold offsetDir
  by_cases hd : g.inv d
  · rw [if_pos hd]
    exact ⟨hx, fun _ _ => rfl, fun _ => rfl, fun h => by rw [hd] at h; exact absurd h (by decide)⟩
  · rw [if_neg hd]
    obtain ⟨h1, h2, h3⟩ := get_bounds g.m (hi_lo g) hx
    refine ⟨h3, fun i hi => if_neg hi, fun h => absurd h hd, fun _ => ⟨(get g.m (lo g) (hi g) x).1, by linarith, ?_, if_pos rfl⟩⟩
    rw [hi_lo] at h2 ⊢
    linarith

theorem offset_eq (g : Geo K) (p : Fin 3 → K) (x : ℕ) :
    offset g p x = offsetDir g (offsetDir g (offsetDir g (p, x) 0) 1) 2 := rfl

/-- the offset of a position in direction `d` -/
def InCell (g : Geo K) (cell pos : Fin 3 → K) (d : Fin 3) : Prop :=
  if g.inv d then pos d = cell d else ∃ u, lo g ≤ u ∧ u < hi g ∧ pos d = cell d + u * g.dx d

theorem offset_spec (g : Geo K) (p : Fin 3 → K) {x : ℕ} (hx : Live x) :
    Live (offset g p x).2 ∧ ∀ d, InCell g p (offset g p x).1 d := by
  rw [offset_eq]
  obtain ⟨a1, a2, a3, a4⟩ := offsetDir_spec g p hx 0
  rcases e1 : offsetDir g (p, x) 0 with ⟨p1, x1⟩
  rw [e1] at a1 a2 a3 a4
  obtain ⟨b1, b2, b3, b4⟩ := offsetDir_spec g p1 a1 1
  rcases e2 : offsetDir g (p1, x1) 1 with ⟨p2, x2⟩
  rw [e2] at b1 b2 b3 b4
  obtain ⟨c1, c2, c3, c4⟩ := offsetDir_spec g p2 b1 2
  rcases e3 : offsetDir g (p2, x2) 2 with ⟨p3, x3⟩
  rw [e3] at c1 c2 c3 c4
  dsimp only at *
  refine ⟨c1, fun d => ?_⟩
  have q0 : p3 0 = p1 0 := by rw [c2 0 (by decide), b2 0 (by decide)]
  have q1 : p3 1 = p2 1 := c2 1 (by decide)
  have r1 : p1 1 = p 1 := a2 1 (by decide)
  have r2 : p2 2 = p 2 := by rw [b2 2 (by decide), a2 2 (by decide)]
  unfold InCell
  fin_cases d
  · show if g.inv 0 then p3 0 = p 0 else ∃ u, lo g ≤ u ∧ u < hi g ∧ p3 0 = p 0 + u * g.dx 0
    rw [q0]
    split_ifs with h
    · exact a3 h
    · exact a4 (by simpa using h)
  · show if g.inv 1 then p3 1 = p 1 else ∃ u, lo g ≤ u ∧ u < hi g ∧ p3 1 = p 1 + u * g.dx 1
    rw [q1, ← r1]
    split_ifs with h
    · exact b3 h
    · exact b4 (by simpa using h)
  · show if g.inv 2 then p3 2 = p 2 else ∃ u, lo g ≤ u ∧ u < hi g ∧ p3 2 = p 2 + u * g.dx 2
    rw [← r2]
    split_ifs with h
    · exact c3 h
    · exact c4 (by simpa using h)

theorem place_succ (g : Geo K) (c : Call K) (n x : ℕ) : place g c (n + 1) x =
    (⟨c.kind, c.weight, c.pos, (offset g c.pos x).1⟩ :: (place g c n (offset g c.pos x).2).1, (place g c n (offset g c.pos x).2).2) := rfl

theorem place_spec (g : Geo K) (c : Call K) : ∀ (n x : ℕ), Live x →
    Live (place g c n x).2 ∧
      ∀ p ∈ (place g c n x).1, p.kind = c.kind ∧ p.weight = c.weight ∧ p.cell = c.pos ∧ ∀ d, InCell g p.cell p.pos d
  | 0, x, hx => ⟨hx, fun p hp => by cases hp⟩
  | n + 1, x, hx => by
    obtain ⟨h1, h2⟩ := offset_spec g c.pos hx
    obtain ⟨h3, h5⟩ := place_spec g c n (offset g c.pos x).2 h1
    rw [place_succ]
    refine ⟨h3, fun p hp => ?_⟩
    rcases List.mem_cons.1 hp with rfl | hp
    · exact ⟨rfl, rfl, rfl, h2⟩
    · exact h5 p hp

theorem run_spec (g : Geo K) : ∀ (cs : List (Call K)) (gens : ℕ → ℕ), (∀ k, Live (gens k)) →
    ∀ p ∈ run g cs gens, ∀ d, InCell g p.cell p.pos d
  | [], _, _, p, hp => by cases hp
  | c :: cs, gens, hg, p, hp => by
    obtain ⟨h1, h3⟩ := place_spec g c c.n_in_cell.toNat (gens c.kind) (hg _)
    rcases List.mem_append.1 hp with hp | hp
    · exact (h3 p hp).2.2.2
    · exact run_spec g cs _ (fun k => by
        show Live (if k = c.kind then _ else gens k)
        split_ifs
        · exact h1
        · exact hg k) p hp

theorem place_cells (g : Geo K) (c : Call K) : ∀ n x, (place g c n x).1.map (fun p => (p.kind, p.weight, p.cell)) =
    List.replicate n (c.kind, c.weight, c.pos)
  | 0, _ => rfl
  | n + 1, x => by
    rw [place_succ, List.map_cons, place_cells g c n, List.replicate_succ]

theorem run_cells (g : Geo K) : ∀ (cs : List (Call K)) (gens : ℕ → ℕ), (run g cs gens).map (fun p => (p.kind, p.weight, p.cell)) =
    cs.flatMap fun c => List.replicate c.n_in_cell.toNat (c.kind, c.weight, c.pos)
  | [], _ => rfl
  | c :: cs, gens => by
    have ih := run_cells g cs (fun k => if k = c.kind then (place g c c.n_in_cell.toNat (gens c.kind)).2 else gens k)
    show List.map _ ((place g c c.n_in_cell.toNat (gens c.kind)).1 ++ _) = _
    rw [List.map_append, place_cells, List.flatMap_cons]
    exact congrArg _ ih

/-! ## Kinds have engines of their own -/

/-- only one kind -/
def runKind (g : Geo K) : List (K × (Fin 3 → K)) → ℕ → List (K × (Fin 3 → K))
  | [], _ => []
  | c :: cs, x => (c.1, (offset g c.2 x).1) :: runKind g cs (offset g c.2 x).2

theorem place_runKind (g : Geo K) (c : Call K) (l : List (K × (Fin 3 → K))) : ∀ n x,
    (place g c n x).1.map (fun p => (p.weight, p.pos)) ++ runKind g l (place g c n x).2 =
      runKind g (List.replicate n (c.weight, c.pos) ++ l) x
  | 0, x => rfl
  | n + 1, x => by
    rw [place_succ, List.replicate_succ, List.cons_append, List.map_cons, List.cons_append, place_runKind g c l n]
    rfl

theorem run_kind (g : Geo K) (kind : ℕ) : ∀ (cs : List (Call K)) (gens : ℕ → ℕ),
    positions (run g cs gens) kind = runKind g (asked cs kind) (gens kind)
  | [], _ => rfl
  | c :: cs, gens => by
    have ih := run_kind g kind cs (fun k => if k = c.kind then (place g c c.n_in_cell.toNat (gens c.kind)).2 else gens k)
    have hk : ∀ p ∈ (place g c c.n_in_cell.toNat (gens c.kind)).1, p.kind = c.kind := by
      intro p hp
      have := List.mem_map_of_mem (f := fun p : Placed K => (p.kind, p.weight, p.cell)) hp
      rw [place_cells] at this
      exact congrArg Prod.fst (List.eq_of_mem_replicate this)
    have e : run g (c :: cs) gens = (place g c c.n_in_cell.toNat (gens c.kind)).1 ++
      run g cs (fun k => if k = c.kind then (place g c c.n_in_cell.toNat (gens c.kind)).2 else gens k) := rfl
    rw [e]
    unfold positions asked at *
    rw [List.filter_append, List.map_append, ih, List.filter_cons]
    by_cases h : c.kind = kind
    · subst h
      rw [if_pos rfl, List.filter_eq_self.2 (fun p hp => by simpa using hk p hp), if_pos (by simp), List.flatMap_cons,
        place_runKind]
    · rw [if_neg (fun h' => h h'.symm), List.filter_eq_nil_iff.2 (fun p hp => by rw [hk p hp]; simpa using h), if_neg (by simpa using h)]
      rfl

/-! ## Ranks -/

/-- `u'` is `f u` up to a whole number and up to `e` -/
def Near1 (f : ℕ) (e u u' : K) : Prop := ∃ k : ℤ, |u' - f * u + k| ≤ e

theorem canonical_one {x x' : ℕ} {f : ℕ} (hf : 0 < f) (h : Times f x x') :
    Near1 f ((f - 1 : K) / (M - 1)) (canonicalFrom 1 (0 : K) 1 x).1 (canonicalFrom 1 (0 : K) 1 x').1 ∧
      Times f (canonicalFrom 1 (0 : K) 1 x).2 (canonicalFrom 1 (0 : K) 1 x').2 := by
  refine ⟨?_, h.next⟩
  obtain ⟨k, hk, e⟩ := h.next.quot hf
  have e' : (f : K) * next x = next x' + k * M := by exact_mod_cast e
  have hk' : (k : K) + 1 ≤ f := by exact_mod_cast hk
  have hk0 : (0 : K) ≤ k := Nat.cast_nonneg _
  have hR : (0 : K) < M - 1 := by unfold M; norm_num
  have u1 : (canonicalFrom 1 (0 : K) 1 x).1 = ((next x : K) - 1) / (M - 1) := by simp [canonicalFrom]
  have u2 : (canonicalFrom 1 (0 : K) 1 x').1 = ((next x' : K) - 1) / (M - 1) := by simp [canonicalFrom]
  refine ⟨k, ?_⟩
  rw [u1, u2]
  have : ((next x' : K) - 1) / (M - 1) - f * (((next x : K) - 1) / (M - 1)) + ((k : ℤ) : K) = (f - 1 - k) / (M - 1) := by
    push_cast
    field_simp
    linear_combination -e'
  rw [this, abs_of_nonneg (div_nonneg (by linarith) hR.le)]
  exact div_le_div_of_nonneg_right (by linarith) hR.le

theorem canonical_two {x x' : ℕ} {f : ℕ} (hf : 0 < f) (h : Times f x x') :
    Near1 f (2 * (f - 1 : K) / (M - 1)) (canonicalFrom 2 (0 : K) 1 x).1 (canonicalFrom 2 (0 : K) 1 x').1 ∧
      Times f (canonicalFrom 2 (0 : K) 1 x).2 (canonicalFrom 2 (0 : K) 1 x').2 := by
  refine ⟨?_, h.next.next⟩
  obtain ⟨k1, hk1, e1⟩ := h.next.quot hf
  obtain ⟨k2, hk2, e2⟩ := h.next.next.quot hf
  have e1' : (f : K) * next x = next x' + k1 * M := by exact_mod_cast e1
  have e2' : (f : K) * next (next x) = next (next x') + k2 * M := by exact_mod_cast e2
  have hk1' : (k1 : K) + 1 ≤ f := by exact_mod_cast hk1
  have hk2' : (k2 : K) + 1 ≤ f := by exact_mod_cast hk2
  have h10 : (0 : K) ≤ k1 := Nat.cast_nonneg _
  have h20 : (0 : K) ≤ k2 := Nat.cast_nonneg _
  have hR : (1 : K) ≤ M - 1 := by unfold M; norm_num
  have hR0 : (0 : K) < M - 1 := by linarith
  have u1 : (canonicalFrom 2 (0 : K) 1 x).1 = (((next x : K) - 1) + ((next (next x) : K) - 1) * (M - 1)) / ((M - 1) * (M - 1)) := by
    simp [canonicalFrom]
  have u2 : (canonicalFrom 2 (0 : K) 1 x').1 = (((next x' : K) - 1) + ((next (next x') : K) - 1) * (M - 1)) / ((M - 1) * (M - 1)) := by
    simp [canonicalFrom]
  refine ⟨k2, ?_⟩
  rw [u1, u2]
  have hM : (M : K) = (M - 1) + 1 := by ring
  have hne : (M : K) - 1 ≠ 0 := ne_of_gt hR0
  have key : (((next x' : K) - 1) + ((next (next x') : K) - 1) * (M - 1)) / ((M - 1) * (M - 1)) -
      f * ((((next x : K) - 1) + ((next (next x) : K) - 1) * (M - 1)) / ((M - 1) * (M - 1))) + ((k2 : ℤ) : K) =
      ((f - 1) * M - k1 * M - k2 * (M - 1)) / ((M - 1) * (M - 1)) := by
    rw [eq_div_iff (mul_ne_zero hne hne), add_mul, sub_mul, mul_assoc (f : K), div_mul_cancel₀ _ (mul_ne_zero hne hne),
      div_mul_cancel₀ _ (mul_ne_zero hne hne)]
    push_cast
    linear_combination -e1' - (M - 1) * e2'
  rw [key, abs_div, abs_of_pos (mul_pos hR0 hR0), div_le_div_iff₀ (mul_pos hR0 hR0) hR0]
  have hb : |((f : K) - 1) * M - k1 * M - k2 * (M - 1)| ≤ 2 * (f - 1) * (M - 1) := by
    have hf0 : (0 : K) ≤ f - 1 := by linarith
    generalize (M : K) - 1 = R at *
    rw [hM, abs_le]
    constructor <;> nlinarith [mul_nonneg h10 hR0.le, mul_nonneg h20 hR0.le, mul_nonneg hf0 hR0.le,
      mul_le_mul_of_nonneg_right (show (k1 : K) ≤ f - 1 by linarith) (show (0 : K) ≤ R + 1 by linarith),
      mul_le_mul_of_nonneg_right (show (k2 : K) ≤ f - 1 by linarith) hR0.le]
  calc _ ≤ 2 * ((f : K) - 1) * (M - 1) * (M - 1) := mul_le_mul_of_nonneg_right hb hR0.le
    _ = _ := by ring

theorem get_rel {m : ℕ} (hm : m = 1 ∨ m = 2) {x x' : ℕ} {f : ℕ} (hf : 0 < f) (h : Times f x x') {a b : K} (hab : b = a + 1) :
    Near1 f ((m : K) * (f - 1) / (M - 1)) ((get m a b x).1 - a) ((get m a b x').1 - a) ∧
      Times f (get m a b x).2 (get m a b x').2 := by
  have e : ∀ x, (get m a b x).1 - a = (canonicalFrom m 0 1 x).1 := by
    intro x
    show (canonicalFrom m 0 1 x).1 * (b - a) + a - a = _
    rw [hab]; ring
  rw [e, e]
  rcases hm with rfl | rfl
  · exact ⟨by simpa using (canonical_one (K := K) hf h).1, (canonical_one (K := K) hf h).2⟩
  · exact ⟨by simpa using (canonical_two (K := K) hf h).1, (canonical_two (K := K) hf h).2⟩

/-- the same place in the cell, up to the factor -/
def Rel (g : Geo K) (f : ℕ) (cell pos cell' pos' : Fin 3 → K) (d : Fin 3) : Prop :=
  g.inv d = false → Near1 f ((g.m : K) * (f - 1) / (M - 1)) ((pos d - cell d) / g.dx d - lo g) ((pos' d - cell' d) / g.dx d - lo g)

theorem offsetDir_rel (g : Geo K) (hm : g.m = 1 ∨ g.m = 2) (hdx : ∀ d, g.dx d ≠ 0) {f : ℕ} (hf : 0 < f) (p p' : Fin 3 → K) {x x' : ℕ}
    (h : Times f x x') (d : Fin 3) :
    Times f (offsetDir g (p, x) d).2 (offsetDir g (p', x') d).2 ∧
      Rel g f p (offsetDir g (p, x) d).1 p' (offsetDir g (p', x') d).1 d ∧
      (∀ i, i ≠ d → (offsetDir g (p, x) d).1 i = p i ∧ (offsetDir g (p', x') d).1 i = p' i) := by
  unfold offsetDir Rel
  by_cases hd : g.inv d
  · rw [if_pos hd, if_pos hd]
    exact ⟨h, fun h' => by rw [hd] at h'; exact absurd h' (by decide), fun i _ => ⟨rfl, rfl⟩⟩
  · rw [if_neg hd, if_neg hd]
    obtain ⟨h1, h2⟩ := get_rel hm hf h (hi_lo g)
    refine ⟨h2, fun _ => ?_, fun i hi => ⟨if_neg hi, if_neg hi⟩⟩
    have e : ∀ (p : Fin 3 → K) (u : K), ((if d = d then p d + u * g.dx d else p d) - p d) / g.dx d = u := by
      intro p u
      rw [if_pos rfl, add_sub_cancel_left, mul_div_cancel_right₀ _ (hdx d)]
    show Near1 f _ (((if d = d then p d + _ * g.dx d else p d) - p d) / g.dx d - lo g)
      (((if d = d then p' d + _ * g.dx d else p' d) - p' d) / g.dx d - lo g)
    rw [e, e]
    exact h1

theorem offset_rel (g : Geo K) (hm : g.m = 1 ∨ g.m = 2) (hdx : ∀ d, g.dx d ≠ 0) {f : ℕ} (hf : 0 < f) (p p' : Fin 3 → K) {x x' : ℕ}
    (h : Times f x x') : Times f (offset g p x).2 (offset g p' x').2 ∧ ∀ d, Rel g f p (offset g p x).1 p' (offset g p' x').1 d := by
  rw [offset_eq, offset_eq]
  obtain ⟨a1, a2, a3⟩ := offsetDir_rel g hm hdx hf p p' h 0
  rcases e1 : offsetDir g (p, x) 0 with ⟨p1, x1⟩
  rcases e1' : offsetDir g (p', x') 0 with ⟨p1', x1'⟩
  rw [e1, e1'] at a1 a2 a3
  obtain ⟨b1, b2, b3⟩ := offsetDir_rel g hm hdx hf p1 p1' a1 1
  rcases e2 : offsetDir g (p1, x1) 1 with ⟨p2, x2⟩
  rcases e2' : offsetDir g (p1', x1') 1 with ⟨p2', x2'⟩
  rw [e2, e2'] at b1 b2 b3
  obtain ⟨c1, c2, c3⟩ := offsetDir_rel g hm hdx hf p2 p2' b1 2
  rcases e3 : offsetDir g (p2, x2) 2 with ⟨p3, x3⟩
  rcases e3' : offsetDir g (p2', x2') 2 with ⟨p3', x3'⟩
  rw [e3, e3'] at c1 c2 c3
  dsimp only at *
  refine ⟨c1, fun d => ?_⟩
  obtain ⟨q0, q0'⟩ := c3 0 (by decide)
  obtain ⟨r0, r0'⟩ := b3 0 (by decide)
  obtain ⟨q1, q1'⟩ := c3 1 (by decide)
  obtain ⟨r1, r1'⟩ := a3 1 (by decide)
  obtain ⟨q2, q2'⟩ := b3 2 (by decide)
  obtain ⟨r2, r2'⟩ := a3 2 (by decide)
  unfold Rel at *
  fin_cases d
  · show g.inv 0 = false → Near1 f _ ((p3 0 - p 0) / g.dx 0 - lo g) ((p3' 0 - p' 0) / g.dx 0 - lo g)
    rw [q0, q0', r0, r0']; exact a2
  · show g.inv 1 = false → Near1 f _ ((p3 1 - p 1) / g.dx 1 - lo g) ((p3' 1 - p' 1) / g.dx 1 - lo g)
    rw [q1, q1', ← r1, ← r1']; exact b2
  · show g.inv 2 = false → Near1 f _ ((p3 2 - p 2) / g.dx 2 - lo g) ((p3' 2 - p' 2) / g.dx 2 - lo g)
    rw [← r2, ← r2', ← q2, ← q2']; exact c2

/-- particle by particle -/
def PRel (g : Geo K) (f : ℕ) (p p' : Placed K) : Prop := p.kind = p'.kind ∧ ∀ d, Rel g f p.cell p.pos p'.cell p'.pos d

theorem place_rel (g : Geo K) (hm : g.m = 1 ∨ g.m = 2) (hdx : ∀ d, g.dx d ≠ 0) {f : ℕ} (hf : 0 < f) {c c' : Call K} (hc : c.kind = c'.kind) :
    ∀ (n : ℕ) {x x' : ℕ}, Times f x x' → Times f (place g c n x).2 (place g c' n x').2 ∧
      List.Forall₂ (PRel g f) (place g c n x).1 (place g c' n x').1
  | 0, _, _, h => ⟨h, .nil⟩
  | n + 1, x, x', h => by
    obtain ⟨h1, h2⟩ := offset_rel g hm hdx hf c.pos c'.pos h
    obtain ⟨h3, h4⟩ := place_rel g hm hdx hf hc n h1
    rw [place_succ, place_succ]
    exact ⟨h3, .cons ⟨hc, h2⟩ h4⟩

theorem run_rel (g : Geo K) (hm : g.m = 1 ∨ g.m = 2) (hdx : ∀ d, g.dx d ≠ 0) {f : ℕ} (hf : 0 < f) {cs cs' : List (Call K)}
    (hc : SameNumbers cs cs') : ∀ {gens gens' : ℕ → ℕ}, (∀ k, Times f (gens k) (gens' k)) →
      List.Forall₂ (PRel g f) (run g cs gens) (run g cs' gens') := by
  induction hc with
  | nil => intro _ _ _; exact .nil
  | @cons c c' cs cs' h _ ih =>
    intro gens gens' hg
    obtain ⟨h1, h2⟩ := h
    obtain ⟨h3, h4⟩ := place_rel g hm hdx hf h1 c.n_in_cell.toNat (hg c.kind)
    show List.Forall₂ _ ((place g c c.n_in_cell.toNat (gens c.kind)).1 ++ _) ((place g c' c'.n_in_cell.toNat (gens' c'.kind)).1 ++ _)
    rw [← h2, ← h1]
    refine List.rel_append h4 (ih fun k => ?_)
    show Times f (if k = c.kind then _ else _) (if k = c.kind then _ else _)
    split_ifs
    · exact h3
    · exact hg k

/-! ## Seeds -/

theorem seed_some {rank s : ℕ} (h : get_process_seed rank = some s) : s = 10000 * (rank + 1) ∧ s < 2 ^ 31 := by
  unfold get_process_seed at h
  split_ifs at h with h'
  · cases h; exact ⟨rfl, h'⟩

theorem seeded_eq {rank s : ℕ} (h : get_process_seed rank = some s) : seeded s = 10000 * (rank + 1) := by
  obtain ⟨rfl, h2⟩ := seed_some h
  have hlt : 10000 * (rank + 1) < M := by unfold M; omega
  unfold seeded
  rw [Nat.mod_eq_of_lt hlt, if_neg (by omega)]

theorem seeds_times {rank s s0 : ℕ} (h : get_process_seed rank = some s) (h0 : get_process_seed 0 = some s0) :
    Times (rank + 1) (seeded s0) (seeded s) := by
  refine ⟨seeded_live _, seeded_live _, ?_⟩
  rw [seeded_eq h, seeded_eq h0, show (rank + 1) * (10000 * (0 + 1)) = 10000 * (rank + 1) by ring]

theorem iter_eq (n x : ℕ) (hx : x < M) : next^[n] x = 16807 ^ n * x % M := by
  induction n with
  | zero => simp [Nat.mod_eq_of_lt hx]
  | succ n ih =>
    rw [Function.iterate_succ_apply', ih]
    unfold next
    rw [Nat.mul_mod, Nat.mod_mod, ← Nat.mul_mod, pow_succ]
    congr 1
    ring

theorem iter_inj {n x y : ℕ} (hx : x < M) (hy : y < M) (h : next^[n] x = next^[n] y) : x = y := by
  rw [iter_eq n x hx, iter_eq n y hy] at h
  have h' : 16807 ^ n * x ≡ 16807 ^ n * y [MOD M] := h
  have := Nat.ModEq.cancel_left_of_coprime (by rw [Nat.gcd_comm]; exact Nat.Coprime.pow_left n coprime_a) h'
  exact Nat.ModEq.eq_of_lt_of_lt this hx hy

omit [IsStrictOrderedRing K] [FloorRing K] in
theorem setup_some {g : Geo K} {rank : ℕ} {calls : List (Call K)} {l : List (Placed K)} (h : setup g rank calls = some l) :
    ∃ s, get_process_seed rank = some s ∧ l = run g calls fun _ => seeded s := by
  unfold setup at h
  generalize get_process_seed rank = o at h ⊢
  cases o with
  | none => exact absurd h (by simp)
  | some s => exact ⟨s, rfl, (Option.some.inj h).symm⟩

/-! ## From the densities -/

theorem callsOf_two {C : Type} (P : Setup.Params K) (e : K) (hq : P.q = [e, -e]) (hpop : P.n_populations = 2) (hneut : P.neutralizing_population < 0)
    (hf : P.fractional = false) (rnd : ℕ → K) (init_np : C → ℕ → Setup.Np K → Setup.Np K)
    (hkind : ∀ c pop np, (init_np c pop np).kind = np.kind)
    (hn : ∀ c np np', (init_np c 0 np).n = (init_np c 1 np').n) (posOf : C → Fin 3 → K) :
    ∀ (cells : List C) (i : ℕ) (calls : List (Call K)), callsOf P rnd init_np posOf cells i = some calls →
      asked calls 0 = asked calls 1 ∧ ∀ c ∈ calls, c.kind = 0 ∨ c.kind = 1
  | [], i, calls, h => by
    cases h
    exact ⟨rfl, fun c hc => by cases hc⟩
  | c :: cs, i, calls, h => by
    simp only [callsOf, Option.bind_eq_bind, Option.bind_eq_some_iff] at h
    obtain ⟨⟨l, s⟩, h1, l', h2, h⟩ := h
    obtain ⟨i1, i2⟩ := callsOf_two P e hq hpop hneut hf rnd init_np hkind hn posOf cs _ _ h2
    injection h with h
    subst h
    obtain ⟨hl, hs⟩ := Setup.cellLoop_spec P rnd (init_np c) _ 0 _ _ _ h1
    rw [hpop] at hl
    obtain ⟨a, b, rfl⟩ := List.length_eq_two.1 hl
    obtain ⟨b1, b2⟩ := hs 0 (by simp)
    obtain ⟨c1, c2⟩ := hs 1 (by simp)
    obtain ⟨j0, b2⟩ := b2 (by push_cast; omega)
    obtain ⟨j1, c2⟩ := c2 (by push_cast; omega)
    simp only [List.getElem_cons_zero, List.getElem_cons_succ] at b1 b2 c1 c2
    have ka : a.2.kind = 0 := by rw [b1, hkind]; simp [Setup.np0]
    have kb : b.2.kind = 1 := by rw [c1, hkind]; simp [Setup.np0, hq]
    have hnn : a.2.n = b.2.n := by rw [b1, c1]; exact hn _ _ _
    have hcount : a.1 = b.1 := by
      rw [b2, c2, hnn]
      unfold Setup.get_n_in_cell
      rw [hf]
      simp
    refine ⟨?_, fun c' hc' => ?_⟩
    · unfold asked at i1 ⊢
      simp only [List.map_cons, List.map_nil, List.cons_append, List.nil_append, List.filter_cons, ka, kb]
      simp only [decide_true, if_true, zero_ne_one, one_ne_zero, decide_false, Bool.false_eq_true, if_false, List.flatMap_cons, hcount, hnn,
        i1]
    · simp only [List.map_cons, List.map_nil, List.cons_append, List.nil_append, List.mem_cons] at hc'
      rcases hc' with rfl | rfl | hc'
      · exact .inl ka
      · exact .inr kb
      · exact i2 c' hc'

theorem charge_kinds (q : ℕ → K) (S : (Fin 3 → K) → K) : ∀ l : List (Placed K), (∀ p ∈ l, p.kind = 0 ∨ p.kind = 1) →
    charge q S l = q 0 * ((positions l 0).map fun w => w.1 * S w.2).sum + q 1 * ((positions l 1).map fun w => w.1 * S w.2).sum
  | [], _ => by simp [charge, positions]
  | p :: l, h => by
    have ih := charge_kinds q S l fun p hp => h p (by simp [hp])
    have e : charge q S (p :: l) = q p.kind * p.weight * S p.pos + charge q S l := rfl
    rw [e, ih]
    unfold positions
    rcases h p (by simp) with hk | hk
    · simp only [List.filter_cons, hk, decide_true, if_true, zero_ne_one, decide_false, Bool.false_eq_true, if_false, List.map_cons,
        List.sum_cons]
      ring
    · simp only [List.filter_cons, hk, decide_true, if_true, one_ne_zero, decide_false, Bool.false_eq_true, if_false, List.map_cons,
        List.sum_cons]
      ring

theorem run_kinds (g : Geo K) (cs : List (Call K)) (gens : ℕ → ℕ) : ∀ p ∈ run g cs gens, ∃ c ∈ cs, p.kind = c.kind := by
  intro p hp
  have := List.mem_map_of_mem (f := fun p : Placed K => (p.kind, p.weight, p.cell)) hp
  rw [run_cells, List.mem_flatMap] at this
  obtain ⟨c, hc, h⟩ := this
  exact ⟨c, hc, congrArg Prod.fst (List.eq_of_mem_replicate h)⟩

end Psc.Offsets
