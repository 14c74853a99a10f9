import Verif.Spec.TotalCurrent
import Verif.Model.Push
import Verif.Lemmas.Esirkepov
import Verif.Lemmas.Split
import Mathlib.Algebra.BigOperators.Ring.Finset
import Mathlib.Tactic.FinCases

namespace Psc.TotalCurrent

open Spec

section
variable {K : Type*} [Field K]

/-- sum of all values added to component `d` -/
def tot (evs : List (Add K)) (d : Fin 3) : K := (evs.map fun e => if e.m = d then e.v else 0).sum

theorem tot_nil (d : Fin 3) : tot ([] : List (Add K)) d = 0 := rfl

theorem tot_cons (e : Add K) (es : List (Add K)) (d : Fin 3) :
    tot (e :: es) d = ind (e.m = d) * e.v + tot es d := by
  simp only [tot, List.map_cons, List.sum_cons, ind]
  split_ifs <;> simp

theorem tot_append (a b : List (Add K)) (d : Fin 3) : tot (a ++ b) d = tot a d + tot b d := by
  simp [tot]

theorem tot_flatMap {A : Type*} (xs : List A) (f : A → List (Add K)) (d : Fin 3) :
    tot (xs.flatMap f) d = (xs.map fun a => tot (f a) d).sum := by
  induction xs with
  | nil => rfl
  | cons a xs ih => rw [List.flatMap_cons, tot_append, ih]; simp

theorem tot_map {A : Type*} (xs : List A) (f : A → Add K) (d : Fin 3) :
    tot (xs.map f) d = (xs.map fun a => ind ((f a).m = d) * (f a).v).sum := by
  induction xs with
  | nil => rfl
  | cons a xs ih => rw [List.map_cons, tot_cons, ih]; simp

/-- The total of the field deposited by a list of additions. -/
theorem total_tot (evs : List (Add K)) (d : Fin 3) : Total (fieldOf evs d) (tot evs d) := by
  classical
  have key : ∀ T : Finset (ℤ × ℤ × ℤ), (∀ e ∈ evs, (e.i, e.j, e.k) ∈ T) →
      ∑ n ∈ T, fieldOf evs d n.1 n.2.1 n.2.2 = tot evs d := by
    intro T
    induction evs with
    | nil => intro _; simp [tot, fieldOf]
    | cons e es ih =>
      intro h
      have h1 := ih (fun e' he => h e' (List.mem_cons_of_mem _ he))
      have h2 := h e List.mem_cons_self
      have s : ∀ n : ℤ × ℤ × ℤ, fieldOf (e :: es) d n.1 n.2.1 n.2.2 =
          (if n = (e.i, e.j, e.k) then (if e.m = d then e.v else 0) else 0)
            + fieldOf es d n.1 n.2.1 n.2.2 := by
        rintro ⟨a, b, c⟩
        simp only [fieldOf, List.map_cons, List.sum_cons, Prod.mk.injEq]
        congr 1
        by_cases hm : e.m = d
        · by_cases hn : a = e.i ∧ b = e.j ∧ c = e.k
          · rw [if_pos ⟨hm, hn.1.symm, hn.2.1.symm, hn.2.2.symm⟩, if_pos hn, if_pos hm]
          · rw [if_neg (fun t => hn ⟨t.2.1.symm, t.2.2.1.symm, t.2.2.2.symm⟩), if_neg hn]
        · rw [if_neg (fun t => hm t.1), if_neg hm]; simp
      simp only [s, Finset.sum_add_distrib, h1, Finset.sum_ite_eq', h2, if_true]
      simp [tot]
  refine ⟨(evs.map fun e => (e.i, e.j, e.k)).toFinset, ?_, ?_⟩
  · intro i j k hn
    simp only [List.mem_toFinset, List.mem_map, not_exists, not_and] at hn
    unfold fieldOf
    apply List.sum_eq_zero
    intro v hv
    obtain ⟨e, he, rfl⟩ := List.mem_map.mp hv
    rw [if_neg]
    rintro ⟨-, h1, h2, h3⟩
    exact hn e he (by rw [h1, h2, h3])
  · apply key
    intro e he
    simp only [List.mem_toFinset, List.mem_map]
    exact ⟨e, he, rfl⟩

/-! ## Villasenor-Buneman -/

open Current1vb

theorem tot_dep_xyz (f : R3 K) (i : I3) (qw : K) (dx xa : R3 K) (d : Fin 3) :
    tot (dep_xyz f i qw dx xa) d = qw * f d * dx d := by
  fin_cases d <;> simp [dep_xyz, tot_cons, tot_nil, ind] <;> ring

theorem tot_dep_yz (f : R3 K) (i : I3) (qw : K) (dx xa : R3 K) (d : Fin 3) :
    tot (dep_yz f i qw dx xa) d = qw * f d * dx d := by
  fin_cases d <;> simp [dep_yz, tot_cons, tot_nil, ind] <;> ring

theorem tot_dep_xz (f : R3 K) (i : I3) (qw : K) (dx xa : R3 K) (d : Fin 3) :
    tot (dep_xz f i qw dx xa) d = qw * f d * dx d := by
  fin_cases d <;> simp [dep_xz, tot_cons, tot_nil, ind] <;> ring

variable [LinearOrder K] [FloorRing K]

theorem tot_splitDim (f : K) (d : Fin 3) (inv : Bool) (dim : Fin 3)
    (next : R3 K → R3 K → List (Add K)) (h : ∀ a b, tot (next a b) d = f * (b d - a d))
    (xm xp : R3 K) : tot (splitDim inv dim next xm xp) d = f * (xp d - xm d) := by
  unfold splitDim
  simp only
  split_ifs
  · exact h _ _
  · rw [tot_append, h, h]; ring

theorem tot_splitZ (inv : Fin 3 → Bool) (dep : Dep K) (f : R3 K) (qw : K) (d : Fin 3)
    (hd : ∀ i dx xa, tot (dep i qw dx xa) d = qw * f d * dx d) (xm xp : R3 K) :
    tot (splitZ inv dep qw xm xp) d = qw * f d * (xp d - xm d) := by
  unfold splitZ
  refine tot_splitDim _ _ _ _ _ (tot_splitDim _ _ _ _ _ (tot_splitDim _ _ _ _ _ ?_)) _ _
  intro a b
  simp only [oneCell]
  rw [hd]

theorem tot_zigzag (fnqs dt : K) (dx : R3 K) (qw : K) (xm xp : R3 K) (d : Fin 3) :
    tot (zigzag_xyz fnqs dt dx qw xm xp) d = qw * (fnqs / dt * dx d) * (xp d - xm d) := by
  unfold zigzag_xyz oneCell
  simp only
  split_ifs
  · rw [tot_append, tot_dep_xyz, tot_dep_xyz]; unfold fnqsVec; ring
  · rw [tot_dep_xyz]; unfold fnqsVec; ring

open CurrentVar1

variable [IsStrictOrderedRing K]

theorem tot_vbCell (f : R3 K) (qw : K) (i : I3) (x dx : R3 K) (d : Fin 3) :
    tot (vbCell f qw i x dx) d = qw * f d * dx d := by
  fin_cases d <;> simp [vbCell, tot_cons, tot_nil, ind] <;> ring

theorem tot_cell2d (f : R3 K) (i : I3) (x dx : R3 K) (d : Fin 3) (hd : d ≠ 0) :
    tot (cell2d f i x dx) d = f d * dx d := by
  fin_cases d
  · exact absurd rfl hd
  all_goals simp [cell2d, tot_cons, tot_nil, ind]; ring

omit [FloorRing K] [IsStrictOrderedRing K] in
theorem tot_segment (cell : I3 → R3 K → R3 K → List (Add K)) (f : K) (d : Fin 3)
    (h : ∀ i x dx, tot (cell i x dx) d = f * dx d) (idiff : I3) (s : St K) (o : Option (Fin 3)) :
    tot (segment cell idiff s o).1 d = f * (s.dx d - (segment cell idiff s o).2.dx d) := by
  cases o with
  | none => simp [segment, tot_nil]
  | some o =>
    simp only [segment, h, upd]
    congr 1
    fin_cases d <;> simp

omit [FloorRing K] [IsStrictOrderedRing K] in
theorem tot_run (cell : I3 → R3 K → R3 K → List (Add K)) (f : K) (d : Fin 3)
    (h : ∀ i x dx, tot (cell i x dx) d = f * dx d) (idiff : I3) (s : St K) :
    tot (run cell idiff s) d = f * s.dx d := by
  unfold run
  simp only [tot_append, tot_segment cell f d h, h]
  ring

end

/-! ## Esirkepov -/

section
variable {K : Type*} [Field K]

open Esirkepov

theorem sum_cum (fnq : K) (w : ℤ → K) (n : ℕ) : ∀ (lo : ℤ) (acc : K),
    ((cum fnq w (upTo lo n) acc).map fun p => p.2).sum =
      n * acc - fnq * ((upTo lo n).map fun l : ℤ => ((lo + n - l : ℤ) : K) * w l).sum := by
  induction n with
  | zero => intro lo acc; simp [upTo, cum]
  | succ n ih =>
    intro lo acc
    simp only [upTo, cum, List.map_cons, List.sum_cons, ih]
    have e : ∀ l : ℤ, lo + 1 + (n : ℤ) - l = lo + ((n + 1 : ℕ) : ℤ) - l := by intro l; push_cast; ring
    simp only [e]
    push_cast
    ring

theorem sum_lin (c : K) (xs : List ℤ) (w : ℤ → K) :
    (xs.map fun l : ℤ => (c - (l : K)) * w l).sum =
      c * (xs.map w).sum - (xs.map fun l : ℤ => (l : K) * w l).sum := by
  induction xs with
  | nil => simp
  | cons a xs ih => simp only [List.map_cons, List.sum_cons, ih]; ring

theorem loopLe_snoc (lo hi : ℤ) (h : lo ≤ hi) : loopLe lo hi = loopLt lo hi ++ [hi] := by
  unfold loopLe loopLt
  have e0 : (hi + 1 - lo).toNat = (hi - lo).toNat + 1 := by omega
  have e1 : lo + ((hi - lo).toNat : ℤ) = hi := by omega
  rw [e0, upTo_succ, e1]

/-- full loop -/
theorem sum_cum_le (fnq : K) (w : ℤ → K) (lo hi : ℤ) (hsum : ((loopLe lo hi).map w).sum = 0) :
    ((cum fnq w (loopLe lo hi) 0).map fun p => p.2).sum =
      fnq * ((loopLe lo hi).map fun l : ℤ => (l : K) * w l).sum := by
  unfold loopLe at *
  rw [sum_cum]
  push_cast
  rw [sum_lin, hsum]; ring

/-- loop without the last index -/
theorem sum_cum_lt (fnq : K) (w : ℤ → K) (lo hi : ℤ) (h : lo ≤ hi)
    (hsum : ((loopLe lo hi).map w).sum = 0) :
    ((cum fnq w (loopLt lo hi) 0).map fun p => p.2).sum =
      fnq * ((loopLe lo hi).map fun l : ℤ => (l : K) * w l).sum := by
  rw [loopLe_snoc lo hi h] at *
  simp only [List.map_append, List.sum_append, List.map_cons, List.map_nil, List.sum_cons,
    List.sum_nil, add_zero] at *
  have e1 : lo + ((hi - lo).toNat : ℤ) = hi := by omega
  have := sum_cum fnq w (hi - lo).toNat lo 0
  rw [e1] at this
  unfold loopLt at *
  rw [this]
  push_cast
  rw [sum_lin]
  linear_combination (-fnq * hi) * hsum

/-- what the totals need to know about one direction: unit charge before, no charge created, first
moment of the difference equal to the displacement -/
structure DirTot (d : Dir K) (δ : K) : Prop where
  one : ((loopLe d.lmin d.lmax).map d.s0).sum = 1
  zero : ((loopLe d.lmin d.lmax).map d.s1).sum = 0
  mom : ((loopLe d.lmin d.lmax).map fun l : ℤ => (l : K) * d.s1 l).sum = δ
  le : d.lmin ≤ d.lmax

theorem sum_add' {A : Type*} (xs : List A) (f g : A → K) :
    (xs.map fun a => f a + g a).sum = (xs.map f).sum + (xs.map g).sum := by
  induction xs with
  | nil => simp
  | cons a xs ih => simp only [List.map_cons, List.sum_cons, ih]; ring

theorem DirTot.w1 {d : Dir K} {δ : K} (h : DirTot d δ) :
    ((loopLe d.lmin d.lmax).map fun l => Esirkepov.w1 d l).sum = 1 := by
  unfold Esirkepov.w1
  rw [sum_add', sum_mul, h.one, h.zero]; ring

theorem sum_w2 {a b : Dir K} {α β : K} (ha : DirTot a α) (hb : DirTot b β) :
    ((loopLe b.lmin b.lmax).map fun lb => ((loopLe a.lmin a.lmax).map fun la =>
      Esirkepov.w2 a b la lb).sum).sum = 1 := by
  have e : ∀ lb, ((loopLe a.lmin a.lmax).map fun la => Esirkepov.w2 a b la lb).sum =
      b.s0 lb + 1/2 * b.s1 lb := by
    intro lb
    have e1 : ∀ la, Esirkepov.w2 a b la lb = (b.s0 lb + 1/2 * b.s1 lb) * a.s0 la +
        (1/2 * b.s0 lb + 1/3 * b.s1 lb) * a.s1 la := by intro la; unfold Esirkepov.w2; ring
    simp only [e1]
    rw [sum_add', sum_mul, sum_mul, ha.one, ha.zero]; ring
  simp only [e]
  exact hb.w1

theorem sum_w2' {a b : Dir K} {α β : K} (ha : DirTot a α) (hb : DirTot b β) :
    ((loopLe a.lmin a.lmax).map fun la => ((loopLe b.lmin b.lmax).map fun lb =>
      Esirkepov.w2 a b la lb).sum).sum = 1 := by
  have e : ∀ la, ((loopLe b.lmin b.lmax).map fun lb => Esirkepov.w2 a b la lb).sum =
      a.s0 la + 1/2 * a.s1 la := by
    intro la
    have e1 : ∀ lb, Esirkepov.w2 a b la lb = (a.s0 la + 1/2 * a.s1 la) * b.s0 lb +
        (1/2 * a.s0 la + 1/3 * a.s1 la) * b.s1 lb := by intro lb; unfold Esirkepov.w2; ring
    simp only [e1]
    rw [sum_add', sum_mul, sum_mul, hb.one, hb.zero]; ring
  simp only [e]
  exact ha.w1

/-- one line of current, full loop, transverse weight `c` -/
theorem DirTot.line_le {d : Dir K} {δ : K} (h : DirTot d δ) (c : K) :
    ((cum d.fnq (fun l => d.s1 l * c) (loopLe d.lmin d.lmax) 0).map fun p => p.2).sum =
      d.fnq * δ * c := by
  rw [sum_cum_le]
  · have e : (fun l : ℤ => (l : K) * (d.s1 l * c)) = fun l : ℤ => c * ((l : K) * d.s1 l) := by
      funext l; ring
    rw [e, sum_mul, h.mom]; ring
  · have e : (fun l => d.s1 l * c) = fun l => c * d.s1 l := by funext l; ring
    rw [e, sum_mul, h.zero, mul_zero]

/-- one line of current, short loop, transverse weight `c` -/
theorem DirTot.line_lt {d : Dir K} {δ : K} (h : DirTot d δ) (c : K) :
    ((cum d.fnq (fun l => d.s1 l * c) (loopLt d.lmin d.lmax) 0).map fun p => p.2).sum =
      d.fnq * δ * c := by
  rw [sum_cum_lt _ _ _ _ h.le]
  · have e : (fun l : ℤ => (l : K) * (d.s1 l * c)) = fun l : ℤ => c * ((l : K) * d.s1 l) := by
      funext l; ring
    rw [e, sum_mul, h.mom]; ring
  · have e : (fun l => d.s1 l * c) = fun l => c * d.s1 l := by funext l; ring
    rw [e, sum_mul, h.zero, mul_zero]

theorem DirTot.line_1 {d : Dir K} {δ : K} (h : DirTot d δ) :
    ((cum d.fnq d.s1 (loopLe d.lmin d.lmax) 0).map fun p => p.2).sum = d.fnq * δ := by
  rw [sum_cum_le _ _ _ _ h.zero, h.mom]

theorem sum_zero' {A : Type*} (xs : List A) : (xs.map fun _ => (0:K)).sum = 0 := by
  induction xs <;> simp_all

/-- strip the component indicator of a list of additions that all go to component `a` -/
theorem tot_line (xs : List (ℤ × K)) (a d : Fin 3) (f g h : ℤ × K → ℤ) :
    tot (xs.map fun p => (⟨a, f p, g p, h p, p.2⟩ : Add K)) d =
      ind (a = d) * (xs.map fun p => p.2).sum := by
  rw [tot_map]; exact sum_mul (ind (a = d) : K) xs _

theorem tot_plane (xs : List ℤ) (a d : Fin 3) (f g h : ℤ → ℤ) (v : ℤ → K) :
    tot (xs.map fun p => (⟨a, f p, g p, h p, v p⟩ : Add K)) d =
      ind (a = d) * (xs.map v).sum := by
  rw [tot_map]; exact sum_mul (ind (a = d) : K) xs _

theorem cum_fst (fnq : K) (w : ℤ → K) (g : ℤ → K) (ls : List ℤ) (acc : K) :
    ((cum fnq w ls acc).map fun p => g p.1).sum = (ls.map g).sum := by
  induction ls generalizing acc with
  | nil => rfl
  | cons l ls ih => simp only [cum, List.map_cons, List.sum_cons, ih]

section calcs
variable {x y z : Dir K} {X Y Z : K}

theorem tot_calc_xyz (hx : DirTot x X) (hy : DirTot y Y) (hz : DirTot z Z) (d : Fin 3) :
    tot (calc_xyz x y z) d = ![x.fnq * X, y.fnq * Y, z.fnq * Z] d := by
  simp only [calc_xyz, tot_append, tot_flatMap, tot_line, hx.line_le, hy.line_le, hz.line_le, sum_mul,
    sum_w2 hy hz, sum_w2 hx hz, sum_w2 hx hy]
  fin_cases d <;> simp [ind]

theorem tot_calc_xz (hx : DirTot x X) (hz : DirTot z Z) (f : K) (d : Fin 3) :
    tot (calc_xz x z f) d = ![x.fnq * X, f, z.fnq * Z] d := by
  simp only [calc_xz, tot_append, tot_flatMap, tot_line, tot_plane, hx.line_lt, hz.line_lt, sum_mul,
    sum_w2 hx hz, hx.w1, hz.w1]
  fin_cases d <;> simp [ind]

theorem tot_calc_yz_1st (hy : DirTot y Y) (hz : DirTot z Z) (f : K) (d : Fin 3) :
    tot (calc_yz_1st y z f) d = ![f, y.fnq * Y, z.fnq * Z] d := by
  simp only [calc_yz_1st, tot_append, tot_flatMap, tot_line, tot_plane, hy.line_lt, hz.line_lt, sum_mul,
    sum_w2 hy hz, hy.w1, hz.w1]
  fin_cases d <;> simp [ind]

theorem tot_calc_xy (hx : DirTot x X) (hy : DirTot y Y) (f : K) (d : Fin 3) :
    tot (calc_xy x y f) d = ![x.fnq * X, y.fnq * Y, f] d := by
  have e : ∀ l, ((cum x.fnq (fun l1 => x.s1 l1 * w1 y l) (loopLe x.lmin x.lmax) 0).map
      fun p => w2 x y p.1 l).sum = ((loopLe x.lmin x.lmax).map fun l1 => w2 x y l1 l).sum :=
    fun l => cum_fst _ _ (fun l1 => w2 x y l1 l) _ _
  simp only [calc_xy, tot_append, tot_flatMap, tot_line, tot_cons, tot_nil, add_zero]
  fin_cases d <;> simp [ind, sum_mul, hx.line_le, hy.line_le, hx.w1, hy.w1, e, sum_w2 hx hy]

theorem tot_calc_y (hy : DirTot y Y) (f g : K) (d : Fin 3) :
    tot (calc_y y f g) d = ![f, y.fnq * Y, g] d := by
  have e := cum_fst y.fnq y.s1 (fun l => w1 y l) (loopLe y.lmin y.lmax) 0
  simp only [calc_y, tot_flatMap, tot_cons, tot_nil, add_zero]
  fin_cases d <;> simp [ind, sum_mul, hy.line_1, e, hy.w1]

theorem tot_calc_z (hz : DirTot z Z) (f g : K) (d : Fin 3) :
    tot (calc_z z f g) d = ![f, g, z.fnq * Z] d := by
  have e := cum_fst z.fnq z.s1 (fun l => w1 z l) (loopLe z.lmin z.lmax) 0
  simp only [calc_z, tot_flatMap, tot_cons, tot_nil, add_zero]
  fin_cases d <;> simp [ind, sum_mul, hz.line_1, e, hz.w1]

theorem tot_yzInner (f : K) (l3 : ℤ) (ls : List ℤ) (hn : ls.Nodup) (jyh : K) (jzh : ℤ → K)
    (d : Fin 3) : tot (yzInner y z f l3 ls jyh jzh).1 d =
      ind (0 = d) * (ls.map fun l2 => f * w2 y z l2 l3).sum +
      ind (1 = d) * ((cum y.fnq (fun l2 => y.s1 l2 * w1 z l3) ls jyh).map fun p => p.2).sum +
      ind (2 = d) * (ls.map fun l2 => jzh l2 - z.fnq * (z.s1 l3 * w1 y l2)).sum := by
  induction ls generalizing jyh jzh with
  | nil => simp [yzInner, tot_nil, cum]
  | cons l2 ls ih =>
    rw [List.nodup_cons] at hn
    have e : (ls.map fun l => Function.update jzh l2 (jzh l2 - z.fnq * (z.s1 l3 * w1 y l2)) l
        - z.fnq * (z.s1 l3 * w1 y l)).sum =
        (ls.map fun l => jzh l - z.fnq * (z.s1 l3 * w1 y l)).sum := by
      congr 1
      apply List.map_congr_left
      intro l hl
      rw [Function.update_of_ne]
      rintro rfl
      exact hn.1 hl
    simp only [yzInner, tot_cons, ih hn.2, cum, List.map_cons, List.sum_cons, e, Function.update_self]
    ring

theorem tot_yzOuter (f : K) (ls : List ℤ) (jzh : ℤ → K) (d : Fin 3) :
    tot (yzOuter y z f ls jzh) d =
      ind (0 = d) * (ls.map fun l3 => ((loopLe y.lmin y.lmax).map fun l2 => f * w2 y z l2 l3).sum).sum +
      ind (1 = d) * (ls.map fun l3 => ((cum y.fnq (fun l2 => y.s1 l2 * w1 z l3)
        (loopLe y.lmin y.lmax) 0).map fun p => p.2).sum).sum +
      ind (2 = d) * ((loopLe y.lmin y.lmax).map fun l2 =>
        ((cum z.fnq (fun l3 => z.s1 l3 * w1 y l2) ls (jzh l2)).map fun p => p.2).sum).sum := by
  induction ls generalizing jzh with
  | nil => simp [yzOuter, tot_nil, cum, sum_zero']
  | cons l3 ls ih =>
    simp only [yzOuter, tot_append, tot_yzInner f l3 (loopLe y.lmin y.lmax) (nodup_upTo _ _), ih,
      yzInner_snd f l3 (loopLe y.lmin y.lmax) (nodup_upTo _ _), cum, List.map_cons, List.sum_cons]
    have e : ((loopLe y.lmin y.lmax).map fun l2 => ((cum z.fnq (fun l3 => z.s1 l3 * w1 y l2) ls
          (if l2 ∈ loopLe y.lmin y.lmax then jzh l2 - z.fnq * (z.s1 l3 * w1 y l2) else jzh l2)).map
            fun p => p.2).sum) =
        (loopLe y.lmin y.lmax).map fun l2 => ((cum z.fnq (fun l3 => z.s1 l3 * w1 y l2) ls
          (jzh l2 - z.fnq * (z.s1 l3 * w1 y l2))).map fun p => p.2).sum := by
      apply List.map_congr_left
      intro l hl
      rw [if_pos hl]
    rw [e, sum_add']
    ring

theorem tot_calc_yz_2nd (hy : DirTot y Y) (hz : DirTot z Z) (f : K) (d : Fin 3) :
    tot (calc_yz_2nd y z f) d = ![f, y.fnq * Y, z.fnq * Z] d := by
  simp only [calc_yz_2nd, tot_yzOuter, hy.line_le, hz.line_le, sum_mul, sum_w2 hy hz, hy.w1, hz.w1]
  fin_cases d <;> simp [ind]

end calcs
end

section
variable {K : Type*} [Field K] [LinearOrder K] [IsStrictOrderedRing K] [FloorRing K]
open Esirkepov

theorem dir1_tot (um up fq : K) (hmove : |⌊um⌋ - ⌊up⌋| ≤ 1) :
    DirTot (dir1 um up fq) (up - um) := by
  have hk : ⌊up⌋ = ⌊um⌋ ∨ ⌊up⌋ = ⌊um⌋ - 1 ∨ ⌊up⌋ = ⌊um⌋ + 1 := by
    rw [abs_le] at hmove; omega
  unfold dir1
  simp only
  generalize ⌊um⌋ = lg at *
  have a1 : ¬ (lg - 1 = lg) := by omega
  have a2 : ¬ (lg + 1 = lg) := by omega
  have a3 : ¬ (lg + 1 = lg - 1) := by omega
  have b1 : lg - 1 - lg = -1 := by ring
  have b2 : lg + 1 - lg = 1 := by ring
  have u2 : upTo 0 2 = [0, 1] := by simp [upTo]
  have u3 : upTo 0 3 = [0, 1, 2] := by simp [upTo]
  have u4 : upTo (-1) 3 = [-1, 0, 1] := by simp [upTo]
  have t2 : (1 + 1 - 0 : ℤ).toNat = 2 := by decide
  have t3 : (2 + 1 - 0 : ℤ).toNat = 3 := by decide
  have t4 : (1 + 1 - -1 : ℤ).toNat = 3 := by decide
  rcases hk with h | h | h <;> rw [h] <;>
  · constructor <;>
    simp only [minmax1, if_true, if_false, a1, a2, a3, b1, b2, sub_self, loopLe, t2, t3, t4, u2, u3, u4,
      List.map_cons, List.map_nil, List.sum_cons, List.sum_nil, rhoSet1] <;> norm_num <;> ring

theorem dir2_tot (um up fq : K) (hmove : |nint um - nint up| ≤ 1) :
    DirTot (dir2 um up fq) (up - um) := by
  have hk : nint up = nint um ∨ nint up = nint um - 1 ∨ nint up = nint um + 1 := by
    rw [abs_le] at hmove; omega
  obtain ⟨m0, m1⟩ := nint_spec um
  obtain ⟨p0, p1⟩ := nint_spec up
  have r0 : ∀ (s : ℤ) (h : K), -(1/2) ≤ h → h ≤ 1/2 → rhoSet2 s h = fun i =>
      if i = s + 1 then 1/2 * (1/2 - h) * (1/2 - h) else if i = s then 3/4 - h * h
      else if i = s - 1 then 1/2 * (1/2 + h) * (1/2 + h) else 0 := by
    intro s h h0 h1
    funext i
    unfold rhoSet2
    rw [abs_of_nonneg (by linarith : 0 ≤ h + 1), abs_of_nonpos (by linarith : h - 1 ≤ 0), abs_mul_abs_self]
    split_ifs <;> ring
  have rm := r0 0 _ m0 m1
  have rp := r0 (nint up - nint um) _ p0 p1
  unfold dir2
  simp only [rm, rp]
  clear rm rp m0 m1 p0 p1 hmove r0
  generalize nint um = lg at *
  have a1 : ¬ (lg - 1 = lg) := by omega
  have a2 : ¬ (lg + 1 = lg) := by omega
  have a3 : ¬ (lg + 1 = lg - 1) := by omega
  have b1 : lg - 1 - lg = -1 := by ring
  have b2 : lg + 1 - lg = 1 := by ring
  have u2 : upTo (-1) 3 = [-1, 0, 1] := by simp [upTo]
  have u3 : upTo (-2) 4 = [-2, -1, 0, 1] := by simp [upTo]
  have u4 : upTo (-1) 4 = [-1, 0, 1, 2] := by simp [upTo]
  have t2 : (1 + 1 - -1 : ℤ).toNat = 3 := by decide
  have t3 : (1 + 1 - -2 : ℤ).toNat = 4 := by decide
  have t4 : (2 + 1 - -1 : ℤ).toNat = 4 := by decide
  rcases hk with h | h | h <;> rw [h] <;>
  · constructor <;>
    simp only [minmax2, if_true, if_false, a1, a2, a3, b1, b2, sub_self, loopLe, t2, t3, t4, u2, u3, u4,
      List.map_cons, List.map_nil, List.sum_cons, List.sum_nil] <;> norm_num <;> ring

end
end Psc.TotalCurrent
