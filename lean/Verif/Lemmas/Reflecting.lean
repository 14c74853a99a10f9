import Verif.Spec.Reflecting
import Mathlib.Tactic.Ring
import Mathlib.Tactic.FinCases
import Mathlib.Data.Fintype.Basic
import Mathlib.Algebra.BigOperators.Group.Finset.Piecewise
import Mathlib.Algebra.BigOperators.Ring.Finset

namespace Psc.Reflecting

open Psc.Fields

variable {K : Type*} [AddCommGroup K]

theorem mem_rng (lo hi x : ℤ) : x ∈ rng lo hi ↔ lo ≤ x ∧ x < hi := by
  simp only [rng, List.mem_map, List.mem_range]
  constructor
  · rintro ⟨n, hn, rfl⟩; omega
  · rintro ⟨h1, h2⟩; exact ⟨(x - lo).toNat, by omega, by omega⟩

theorem rng_nodup (lo hi : ℤ) : (rng lo hi).Nodup := by
  unfold rng
  apply List.Nodup.map _ List.nodup_range
  intro a b h
  simp only at h
  omega

theorem mem_boxLoop (lo hi x : I3) : x ∈ boxLoop lo hi ↔ ∀ d, lo d ≤ x d ∧ x d < hi d := by
  simp only [boxLoop, List.mem_flatMap, List.mem_map, mem_rng]
  constructor
  · rintro ⟨k, hk, j, hj, i, hi, rfl⟩ d
    fin_cases d <;> simpa
  · intro h
    refine ⟨x 2, h 2, x 1, h 1, x 0, h 0, ?_⟩
    funext d; fin_cases d <;> rfl

theorem boxLoop_nodup (lo hi : I3) : (boxLoop lo hi).Nodup := by
  unfold boxLoop
  rw [List.nodup_flatMap]
  refine ⟨fun k _ => ?_, ?_⟩
  · rw [List.nodup_flatMap]
    refine ⟨fun j _ => ?_, ?_⟩
    · apply List.Nodup.map _ (rng_nodup _ _)
      intro a b h
      have := congrFun h 0
      simpa using this
    · refine (rng_nodup _ _).imp ?_
      intro a b hab
      simp only [Function.onFun, List.disjoint_left, List.mem_map, not_exists, not_and]
      rintro x ⟨i, -, rfl⟩ i' - h
      have := congrFun h 1
      simp at this
      exact hab this.symm
  · refine (rng_nodup _ _).imp ?_
    intro a b hab
    simp only [Function.onFun, List.disjoint_left, List.mem_flatMap, List.mem_map, not_exists, not_and]
    rintro x ⟨j, -, i, -, rfl⟩ j' - i' - h
    have := congrFun h 2
    simp at this
    exact hab this.symm

/-- a loop without aliasing computes the pointwise sum -/
theorem foldl_foldAt (d : Fin 3) (c : ℤ) (l : List I3) (hnd : l.Nodup)
    (hdisj : ∀ x ∈ l, Function.update x d (c - x d) ∉ l) (f : I3 → K) (i : I3) :
    l.foldl (foldAt d c) f i = if i ∈ l then f i + f (Function.update i d (c - i d)) else f i := by
  classical
  induction l generalizing f with
  | nil => simp
  | cons a l ih =>
    rw [List.nodup_cons] at hnd
    rw [List.foldl_cons, ih hnd.2 (fun x hx h => hdisj x (by simp [hx]) (by simp [h]))]
    have haa : Function.update a d (c - a d) ≠ a := fun h => hdisj a (by simp) (by rw [h]; simp)
    by_cases hia : i = a
    · subst hia
      rw [if_neg hnd.1, if_pos (by simp)]
      simp [foldAt]
    · have h1 : foldAt d c f a i = f i := by simp [foldAt, hia]
      by_cases hil : i ∈ l
      · rw [if_pos hil, if_pos (by simp [hil]), h1]
        have : Function.update i d (c - i d) ≠ a := fun h => hdisj i (by simp [hil]) (by rw [h]; simp)
        simp [foldAt, this]
      · rw [if_neg hil, if_neg (by simp [hia, hil]), h1]

/-- One folding step seen as a transport of contents: `g` on the box `B` is what has been transported there by `φ` from the
original contents `f` on `B0`; after the step, the same holds for the composition with the mirror map `ψ`. -/
theorem transport_step (B0 B B' : I3 → Prop) [DecidablePred B0] (S : Finset I3) (f g g' : I3 → K) (φ ψ r : I3 → I3)
    (W : I3 → Prop) [DecidablePred W]
    (hφ : ∀ j ∈ S, B (φ j)) (hB' : ∀ i, B' i → B i)
    (hg : ∀ i, B i → g i = ∑ j ∈ S, if φ j = i then f j else 0)
    (hg' : ∀ i, B' i → g' i = if W i then g i + g (r i) else g i)
    (hr : ∀ i, B' i → W i → B (r i) ∧ r i ≠ i)
    (hψ : ∀ x i, B x → B' i → (ψ x = i ↔ x = i ∨ (W i ∧ x = r i))) :
    ∀ i, B' i → g' i = ∑ j ∈ S, if ψ (φ j) = i then f j else 0 := by
  intro i hi
  rw [hg' i hi, hg i (hB' i hi)]
  by_cases hw : W i
  · rw [if_pos hw, hg _ (hr i hi hw).1, ← Finset.sum_add_distrib]
    apply Finset.sum_congr rfl
    intro j hj
    have h1 := hψ (φ j) i (hφ j hj) hi
    simp only [hw, true_and] at h1
    have h2 := (hr i hi hw).2
    by_cases ha : φ j = i
    · rw [if_pos ha, if_neg (by rw [ha]; exact fun h => h2 h.symm), if_pos (h1.2 (Or.inl ha)), add_zero]
    · by_cases hb : φ j = r i
      · rw [if_neg ha, if_pos hb, if_pos (h1.2 (Or.inr hb)), zero_add]
      · rw [if_neg ha, if_neg hb, if_neg (fun h => (h1.1 h).elim ha hb), zero_add]
  · rw [if_neg hw]
    apply Finset.sum_congr rfl
    intro j hj
    have h1 := hψ (φ j) i (hφ j hj) hi
    simp only [hw, false_and, or_false] at h1
    simp only [h1]

/-- Geometry of one direction: ghost box `[A, B]`, inside `[0, U]`, reflection constants. -/
structure Dir where
  A : ℤ
  B : ℤ
  U : ℤ
  cLo : ℤ
  cHi : ℤ

/-- what makes folding work: mirror images of ghosts lie inside -/
structure Dir.Ok (D : Dir) : Prop where
  A0 : D.A ≤ 0
  cLo : -1 ≤ D.cLo
  mirLo : D.cLo - D.A ≤ D.U
  mirLoB : D.cLo - D.A ≤ D.B
  mirHi : 0 ≤ D.cHi - D.B
  cHi : D.cHi ≤ 2 * D.U + 1
  B0 : 0 ≤ D.B

/-- mirror map of a direction with the walls in `lo`, `hi` reflecting -/
def Dir.mir (D : Dir) (lo hi : Bool) (x : ℤ) : ℤ :=
  if lo ∧ x < 0 then D.cLo - x else if hi ∧ D.U < x then D.cHi - x else x

/-- coordinates left after the walls in `lo`, `hi` have been folded -/
def Dir.In (D : Dir) (lo hi : Bool) (x : ℤ) : Prop :=
  (if lo then 0 else D.A) ≤ x ∧ x ≤ D.B ∧ (hi → x ≤ D.U)

theorem Dir.mir_in (D : Dir) (h : D.Ok) (lo hi : Bool) (x : ℤ) (hx : D.A ≤ x ∧ x ≤ D.B) : D.In lo hi (D.mir lo hi x) := by
  obtain ⟨h1, h2, h3, h4, h5, h6, h7⟩ := h
  rcases lo with _ | _ <;> rcases hi with _ | _ <;> simp only [Dir.In, Dir.mir] <;> simp <;> (try split_ifs) <;> omega

/-- state: contents `g` are the transported contents of `f` after folding the walls in `lo`, `hi` -/
def Inv (D : Fin 3 → Dir) (f : I3 → K) (lo hi : Fin 3 → Bool) (g : I3 → K) : Prop :=
  ∀ i, (∀ e, (D e).In (lo e) (hi e) (i e)) →
    g i = ∑ j ∈ box (fun e => (D e).A) (fun e => (D e).B), if (fun e => (D e).mir (lo e) (hi e) (j e)) = i then f j else 0

theorem mem_box (lo hi x : I3) : x ∈ box lo hi ↔ ∀ d, lo d ≤ x d ∧ x d ≤ hi d := by
  simp [box, Fintype.mem_piFinset]

theorem Inv.init (D : Fin 3 → Dir) (f : I3 → K) : Inv D f (fun _ => false) (fun _ => false) f := by
  intro i hi
  simp only [Dir.mir]
  simp only [Bool.false_eq_true, false_and, if_false]
  rw [Finset.sum_ite_eq' (box _ _) i f, if_pos]
  rw [mem_box]
  intro d
  have := hi d
  simp [Dir.In] at this
  exact this

theorem Inv.loStep (D : Fin 3 → Dir) (hD : ∀ e, (D e).Ok) (f : I3 → K) (lo hi : Fin 3 → Bool) (g : I3 → K)
    (h : Inv D f lo hi g) (d : Fin 3) (hlo : lo d = false) (l : List I3) (hnd : l.Nodup)
    (hl : ∀ x, x ∈ l ↔ ∀ e, if e = d then (D d).cLo + 1 ≤ x d ∧ x d ≤ (D d).cLo - (D d).A
      else (D e).A ≤ x e ∧ x e ≤ (D e).B) :
    Inv D f (Function.update lo d true) hi (l.foldl (foldAt d (D d).cLo) g) := by
  classical
  obtain ⟨h1, h2, h3, h4, h5, h6, h7⟩ := hD d
  have hdis : ∀ x ∈ l, Function.update x d ((D d).cLo - x d) ∉ l := by
    intro x hx hx'
    have a := (hl _).1 hx d
    have b := (hl _).1 hx' d
    simp at a b
    omega
  have key := transport_step (K := K) (fun _ => True) (fun i => ∀ e, (D e).In (lo e) (hi e) (i e))
    (fun i => ∀ e, (D e).In (Function.update lo d true e) (hi e) (i e))
    (box (fun e => (D e).A) (fun e => (D e).B)) f g (l.foldl (foldAt d (D d).cLo) g)
    (fun j e => (D e).mir (lo e) (hi e) (j e))
    (fun x => if x d < 0 then Function.update x d ((D d).cLo - x d) else x)
    (fun x => Function.update x d ((D d).cLo - x d)) (fun i => i ∈ l)
    (fun j hj e => Dir.mir_in _ (hD e) _ _ _ ((mem_box _ _ _).1 hj e)) ?_ h ?_ ?_ ?_
  · intro i hi'
    rw [key i hi']
    apply Finset.sum_congr rfl
    intro j hj
    congr 1
    have hj := (mem_box _ _ _).1 hj
    rw [eq_iff_iff]
    have : (if (D d).mir (lo d) (hi d) (j d) < 0 then
        Function.update (fun e => (D e).mir (lo e) (hi e) (j e)) d ((D d).cLo - (D d).mir (lo d) (hi d) (j d))
        else fun e => (D e).mir (lo e) (hi e) (j e)) =
        fun e => (D e).mir (Function.update lo d true e) (hi e) (j e) := by
      funext e
      by_cases hed : e = d
      · subst hed
        have := hj e
        simp only [Function.update_self]
        split_ifs with h8
        · simp only [Function.update_self]
          rcases hb : hi e with _ | _ <;> simp [Dir.mir, hlo, hb] at h8 ⊢ <;> (try split_ifs at h8) <;> (try split_ifs) <;> omega
        · rcases hb : hi e with _ | _ <;> simp [Dir.mir, hlo, hb] at h8 ⊢ <;> (try split_ifs at h8) <;> (try split_ifs) <;> omega
      · simp only [Function.update_of_ne hed]
        split_ifs <;> simp [hed]
    rw [← this]
  · intro i hi' e
    have := hi' e
    by_cases hed : e = d
    · subst hed
      simp [Dir.In, hlo] at this ⊢
      exact ⟨by omega, this.2.1, this.2.2⟩
    · simpa [Function.update_of_ne hed] using this
  · intro i hi'
    exact foldl_foldAt d _ l hnd hdis g i
  · intro i hi' hil
    refine ⟨?_, fun h => ?_⟩
    · intro e
      have a := hi' e
      by_cases hed : e = d
      · subst hed
        have b := (hl _).1 hil e
        simp [Dir.In, hlo] at a b ⊢
        constructor
        · omega
        · constructor
          · omega
          · intro _; omega
      · simpa [Function.update_of_ne hed] using a
    · exact hdis i hil (by rw [h]; exact hil)
  · intro x i hx hi'
    constructor
    · intro h8
      split_ifs at h8 with h9
      · right
        subst h8
        refine ⟨?_, ?_⟩
        · rw [hl]
          intro e
          have a := hx e
          by_cases hed : e = d
          · subst hed
            simp [Dir.In, hlo] at a ⊢
            omega
          · simp [Dir.In, hed] at a ⊢
            have := (hD e).A0
            split_ifs at a <;> omega
        · simp
      · exact Or.inl h8
    · rintro (rfl | ⟨h8, rfl⟩)
      · have := hi' d
        simp [Dir.In] at this
        rw [if_neg (by omega)]
      · have b := (hl _).1 h8 d
        simp at b
        rw [if_pos (by simp; omega)]
        simp

theorem Inv.hiStep (D : Fin 3 → Dir) (hD : ∀ e, (D e).Ok) (f : I3 → K) (lo hi : Fin 3 → Bool) (g : I3 → K)
    (h : Inv D f lo hi g) (d : Fin 3) (hhi : hi d = false) (l : List I3) (hnd : l.Nodup)
    (hl : ∀ x, x ∈ l ↔ ∀ e, if e = d then (D d).cHi - (D d).B ≤ x d ∧ x d < (D d).cHi - (D d).U
      else (D e).A ≤ x e ∧ x e ≤ (D e).B) :
    Inv D f lo (Function.update hi d true) (l.foldl (foldAt d (D d).cHi) g) := by
  classical
  obtain ⟨h1, h2, h3, h4, h5, h6, h7⟩ := hD d
  have hdis : ∀ x ∈ l, Function.update x d ((D d).cHi - x d) ∉ l := by
    intro x hx hx'
    have a := (hl _).1 hx d
    have b := (hl _).1 hx' d
    simp at a b
    omega
  have key := transport_step (K := K) (fun _ => True) (fun i => ∀ e, (D e).In (lo e) (hi e) (i e))
    (fun i => ∀ e, (D e).In (lo e) (Function.update hi d true e) (i e))
    (box (fun e => (D e).A) (fun e => (D e).B)) f g (l.foldl (foldAt d (D d).cHi) g)
    (fun j e => (D e).mir (lo e) (hi e) (j e))
    (fun x => if (D d).U < x d then Function.update x d ((D d).cHi - x d) else x)
    (fun x => Function.update x d ((D d).cHi - x d)) (fun i => i ∈ l)
    (fun j hj e => Dir.mir_in _ (hD e) _ _ _ ((mem_box _ _ _).1 hj e)) ?_ h ?_ ?_ ?_
  · intro i hi'
    rw [key i hi']
    apply Finset.sum_congr rfl
    intro j hj
    congr 1
    have hj := (mem_box _ _ _).1 hj
    rw [eq_iff_iff]
    have : (if (D d).U < (D d).mir (lo d) (hi d) (j d) then
        Function.update (fun e => (D e).mir (lo e) (hi e) (j e)) d ((D d).cHi - (D d).mir (lo d) (hi d) (j d))
        else fun e => (D e).mir (lo e) (hi e) (j e)) =
        fun e => (D e).mir (lo e) (Function.update hi d true e) (j e) := by
      funext e
      by_cases hed : e = d
      · subst hed
        have := hj e
        simp only [Function.update_self]
        split_ifs with h8
        · simp only [Function.update_self]
          rcases hb : lo e with _ | _ <;> simp [Dir.mir, hhi, hb] at h8 ⊢ <;> (try split_ifs at h8) <;> (try split_ifs) <;> omega
        · rcases hb : lo e with _ | _ <;> simp [Dir.mir, hhi, hb] at h8 ⊢ <;> (try split_ifs at h8) <;> (try split_ifs) <;> omega
      · simp only [Function.update_of_ne hed]
        split_ifs <;> simp [hed]
    rw [← this]
  · intro i hi' e
    have := hi' e
    by_cases hed : e = d
    · subst hed
      simp [Dir.In, hhi] at this ⊢
      omega
    · simpa [Function.update_of_ne hed] using this
  · intro i hi'
    exact foldl_foldAt d _ l hnd hdis g i
  · intro i hi' hil
    refine ⟨?_, fun h => ?_⟩
    · intro e
      have a := hi' e
      by_cases hed : e = d
      · subst hed
        have b := (hl _).1 hil e
        simp [Dir.In, hhi] at a b ⊢
        rcases lo e <;> simp at a ⊢ <;> omega
      · simpa [Function.update_of_ne hed] using a
    · exact hdis i hil (by rw [h]; exact hil)
  · intro x i hx hi'
    constructor
    · intro h8
      split_ifs at h8 with h9
      · right
        subst h8
        refine ⟨?_, ?_⟩
        · rw [hl]
          intro e
          have a := hx e
          by_cases hed : e = d
          · subst hed
            simp [Dir.In, hhi] at a ⊢
            omega
          · simp [Dir.In, hed] at a ⊢
            have := (hD e).A0
            split_ifs at a <;> omega
        · simp
      · exact Or.inl h8
    · rintro (rfl | ⟨h8, rfl⟩)
      · have := hi' d
        simp [Dir.In] at this
        rw [if_neg (by omega)]
      · have b := (hl _).1 h8 d
        simp at b
        rw [if_pos (by simp; omega)]
        simp

/-- folding all reflecting walls, lower ones first -/
theorem Inv.all (D : Fin 3 → Dir) (f : I3 → K) (reflLo reflHi : Fin 3 → Bool)
    (stLo stHi : Fin 3 → (I3 → K) → I3 → K)
    (hLo : ∀ d lo hi g, lo d = false → Inv D f lo hi g → Inv D f (Function.update lo d true) hi (stLo d g))
    (hHi : ∀ d lo hi g, hi d = false → Inv D f lo hi g → Inv D f lo (Function.update hi d true) (stHi d g)) :
    Inv D f reflLo reflHi ([0, 1, 2].foldl (fun f d => if reflHi d then stHi d f else f)
      ([0, 1, 2].foldl (fun f d => if reflLo d then stLo d f else f) f)) := by
  have lo1 : ∀ d lo g, lo d = false → Inv D f lo (fun _ => false) g →
      Inv D f (Function.update lo d (reflLo d)) (fun _ => false) (if reflLo d then stLo d g else g) := by
    intro d lo g h1 h2
    cases hb : reflLo d
    · have : Function.update lo d false = lo := by rw [← h1]; simp
      simpa [this] using h2
    · simpa using hLo d lo _ g h1 h2
  have hi1 : ∀ d hi g, hi d = false → Inv D f reflLo hi g →
      Inv D f reflLo (Function.update hi d (reflHi d)) (if reflHi d then stHi d g else g) := by
    intro d hi g h1 h2
    cases hb : reflHi d
    · have : Function.update hi d false = hi := by rw [← h1]; simp
      simpa [this] using h2
    · simpa using hHi d _ hi g h1 h2
  have a0 := lo1 0 _ _ rfl (Inv.init D f)
  have a1 := lo1 1 _ _ (by simp) a0
  have a2 := lo1 2 _ _ (by simp) a1
  have e : Function.update (Function.update (Function.update (fun _ : Fin 3 => false) 0 (reflLo 0)) 1 (reflLo 1)) 2
      (reflLo 2) = reflLo := by
    funext d; fin_cases d <;> simp
  rw [e] at a2
  have b0 := hi1 0 _ _ rfl a2
  have b1 := hi1 1 _ _ (by simp) b0
  have b2 := hi1 2 _ _ (by simp) b1
  have e : Function.update (Function.update (Function.update (fun _ : Fin 3 => false) 0 (reflHi 0)) 1 (reflHi 1)) 2
      (reflHi 2) = reflHi := by
    funext d; fin_cases d <;> simp
  rw [e] at b2
  exact b2

/-- the cell-centred geometry -/
def dirCC (ldims ib : I3) (d : Fin 3) : Dir :=
  { A := ib d, B := ldims d - ib d - 1, U := ldims d - 1, cLo := -1, cHi := 2 * ldims d - 1 }

/-- the node-centred geometry -/
def dirNC (ldims ib : I3) (d : Fin 3) : Dir :=
  { A := ib d + unused ib d, B := ldims d - ib d - 1, U := ldims d, cLo := 0, cHi := 2 * ldims d }

theorem dirCC_ok (ldims ib : I3) (h : ∀ d, ib d ≤ 0 ∧ -ib d ≤ ldims d ∧ 1 ≤ ldims d) (d : Fin 3) : (dirCC ldims ib d).Ok := by
  have := h d
  constructor <;> simp only [dirCC] <;> omega

theorem dirNC_ok (ldims ib : I3) (h : ∀ d, ib d ≤ 0 ∧ -ib d ≤ ldims d ∧ 1 ≤ ldims d) (d : Fin 3) : (dirNC ldims ib d).Ok := by
  have := h d
  constructor <;> simp only [dirNC, unused] <;> (try split_ifs) <;> omega

theorem inv_cc (ldims ib : I3) (h : ∀ d, ib d ≤ 0 ∧ -ib d ≤ ldims d ∧ 1 ≤ ldims d) (lo hi : Fin 3 → Bool) (f : I3 → K) :
    Inv (dirCC ldims ib) f lo hi (addGhostsCC ldims ib lo hi f) := by
  apply Inv.all
  · intro d lo hi g h1 h2
    apply Inv.loStep _ (dirCC_ok ldims ib h) f lo hi g h2 d h1 _ (boxLoop_nodup _ _)
    intro x
    rw [mem_boxLoop]
    apply forall_congr'
    intro e
    by_cases hed : e = d
    · subst hed; simp [dirCC]; omega
    · simp [hed, dirCC]; omega
  · intro d lo hi g h1 h2
    apply Inv.hiStep _ (dirCC_ok ldims ib h) f lo hi g h2 d h1 _ (boxLoop_nodup _ _)
    intro x
    rw [mem_boxLoop]
    apply forall_congr'
    intro e
    by_cases hed : e = d
    · subst hed; simp [dirCC]; omega
    · simp [hed, dirCC]; omega

theorem inv_nc (ldims ib : I3) (h : ∀ d, ib d ≤ 0 ∧ -ib d ≤ ldims d ∧ 1 ≤ ldims d) (lo hi : Fin 3 → Bool) (f : I3 → K) :
    Inv (dirNC ldims ib) f lo hi (addGhostsNC ldims ib lo hi f) := by
  apply Inv.all
  · intro d lo hi g h1 h2
    apply Inv.loStep _ (dirNC_ok ldims ib h) f lo hi g h2 d h1 _ (boxLoop_nodup _ _)
    intro x
    rw [mem_boxLoop]
    apply forall_congr'
    intro e
    by_cases hed : e = d
    · subst hed; simp [dirNC]; omega
    · simp [hed, dirNC]; omega
  · intro d lo hi g h1 h2
    apply Inv.hiStep _ (dirNC_ok ldims ib h) f lo hi g h2 d h1 _ (boxLoop_nodup _ _)
    intro x
    rw [mem_boxLoop]
    apply forall_congr'
    intro e
    by_cases hed : e = d
    · subst hed; simp [dirNC, unused]; split_ifs <;> omega
    · simp [hed, dirNC]; omega

end Psc.Reflecting
