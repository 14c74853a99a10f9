import Verif.Spec.OutputPrts
import Verif.Lemmas.Sort
import Verif.Lemmas.Reflecting
import Mathlib.Tactic.Ring
import Mathlib.Tactic.Linarith
import Mathlib.Tactic.FinCases
import Mathlib.Tactic.Positivity

namespace Psc.H5

open Psc.Reflecting (boxLoop mem_boxLoop boxLoop_nodup)

variable {α : Type}

theorem radix (m a b a' b' : ℤ) (ha : 0 ≤ a ∧ a < m) (ha' : 0 ≤ a' ∧ a' < m) (h : a + m * b = a' + m * b') : a = a' ∧ b = b' := by
  have h1 : a - a' = m * (b' - b) := by linarith
  have hm : 0 < m := by omega
  rcases lt_trichotomy b b' with hb | hb | hb
  · have : m * 1 ≤ m * (b' - b) := mul_le_mul_of_nonneg_left (by omega) hm.le
    omega
  · subst hb; exact ⟨by linarith, rfl⟩
  · have : m * (b' - b) ≤ m * (-1) := mul_le_mul_of_nonneg_left (by omega) hm.le
    omega

theorem radix_lt (m a b n : ℤ) (ha : 0 ≤ a ∧ a < m) (hb : 0 ≤ b ∧ b < n) : 0 ≤ a + m * b ∧ a + m * b < m * n := by
  have hm : 0 < m := by omega
  have h1 : 0 ≤ m * b := mul_nonneg hm.le hb.1
  have h2 : m * b ≤ m * (n - 1) := mul_le_mul_of_nonneg_left (by omega) hm.le
  constructor
  · omega
  · have : m * (n - 1) = m * n - m := by ring
    omega

theorem sort_index_eq (ldims : I3) (nk : ℕ) (j : I3) (k : ℕ) :
    sort_index ldims nk j k = k + nk * (j 0 + ldims 0 * (j 1 + ldims 1 * j 2)) := by unfold sort_index; ring

theorem si_lt (c : Cfg α) (j : I3) (k : ℕ) (hj : InPatch c j) (hk : k < c.nk) : si c (j, k) < nr_indices c := by
  unfold si nr_indices
  rw [sort_index_eq]
  have h2 := hj 2
  have h1 := radix_lt (c.ldims 1) (j 1) (j 2) (c.ldims 2) (hj 1) (hj 2)
  have h0 := radix_lt (c.ldims 0) (j 0) _ _ (hj 0) h1
  have hk' := radix_lt (c.nk : ℤ) k _ _ (by omega) h0
  have : c.ldims 0 * c.ldims 1 * c.ldims 2 * c.nk = c.nk * (c.ldims 0 * (c.ldims 1 * c.ldims 2)) := by ring
  rw [this]
  exact (Int.toNat_lt_toNat (by omega)).2 hk'.2

theorem si_inj (c : Cfg α) (j j' : I3) (k k' : ℕ) (hj : InPatch c j) (hk : k < c.nk) (hj' : InPatch c j') (hk' : k' < c.nk)
    (h : si c (j, k) = si c (j', k')) : j = j' ∧ k = k' := by
  unfold si at h
  simp only [sort_index_eq] at h
  have h1 := radix_lt (c.ldims 1) (j 1) (j 2) (c.ldims 2) (hj 1) (hj 2)
  have h0 := radix_lt (c.ldims 0) (j 0) _ _ (hj 0) h1
  have hp := radix_lt (c.nk : ℤ) k _ _ (by omega) h0
  have h1' := radix_lt (c.ldims 1) (j' 1) (j' 2) (c.ldims 2) (hj' 1) (hj' 2)
  have h0' := radix_lt (c.ldims 0) (j' 0) _ _ (hj' 0) h1'
  have hp' := radix_lt (c.nk : ℤ) k' _ _ (by omega) h0'
  have h' : (k : ℤ) + c.nk * (j 0 + c.ldims 0 * (j 1 + c.ldims 1 * j 2)) =
      k' + c.nk * (j' 0 + c.ldims 0 * (j' 1 + c.ldims 1 * j' 2)) := by omega
  obtain ⟨e1, e2⟩ := radix (c.nk : ℤ) k _ k' _ (by omega) (by omega) h'
  obtain ⟨e3, e4⟩ := radix _ _ _ _ _ (hj 0) (hj' 0) e2
  obtain ⟨e5, e6⟩ := radix _ _ _ _ _ (hj 1) (hj' 1) e4
  refine ⟨?_, by omega⟩
  funext d
  fin_cases d
  · exact e3
  · exact e5
  · exact e6

theorem get_sort_index_ok (c : Cfg α) (x : α) (h : InPatch c (cellOf c x)) (hk : c.kind x < c.nk) :
    get_sort_index c x = some (si c (cellOf c x, c.kind x)) := by
  unfold get_sort_index
  have h0 := h 0
  have h1 := h 1
  have h2 := h 2
  unfold cellOf at h0 h1 h2
  simp only
  rw [if_pos ⟨h0, h1, h2⟩, if_pos hk]
  rfl

theorem move1_mono {P : Type} {m n : ℕ} (h : m ≤ n) (l : List (P × ℕ)) : ∀ (s s' : Csort.MoveS P),
    l.foldlM (Csort.move1 m) s = some s' → l.foldlM (Csort.move1 n) s = some s' := by
  induction l with
  | nil => intro s s' h; exact h
  | cons a l ih =>
    intro s s' h1
    rw [List.foldlM_cons] at h1 ⊢
    unfold Csort.move1 at h1 ⊢
    by_cases h2 : s.2 a.2 < m
    · rw [if_pos h2] at h1
      rw [if_pos (by omega)]
      exact ih _ _ h1
    · rw [if_neg h2] at h1; simp at h1

theorem filter_pairs (prts : List α) (P : α → Bool) (f : ℕ → ℕ) (s : ℕ) (l : List ℕ) (hl : ∀ n ∈ l, n < prts.length)
    (hf : ∀ n ∈ l, ∀ x, prts[n]? = some x → (f n = s ↔ P x = true)) :
    ((l.map fun n => (n, f n)).filter fun x => decide (x.2 = s)).map (fun x => prts[x.1]?) =
      ((l.filterMap fun n => prts[n]?).filter P).map some := by
  induction l with
  | nil => rfl
  | cons n l ih =>
    have ih := ih (fun m hm => hl m (by simp [hm])) (fun m hm => hf m (by simp [hm]))
    have hn := hl n (by simp)
    have h1 : prts[n]? = some prts[n] := List.getElem?_eq_getElem hn
    have h2 := hf n (by simp) _ h1
    rw [List.map_cons, List.filterMap_cons, h1]
    simp only
    by_cases h3 : f n = s
    · rw [List.filter_cons_of_pos (by simpa using h3), List.filter_cons_of_pos (h2.1 h3), List.map_cons, List.map_cons, ih, h1]
    · rw [List.filter_cons_of_neg (by simpa using h3), List.filter_cons_of_neg (fun h => h3 (h2.2 h)), ih]

/-- the counting sort finds the groups -/
theorem count_sort_spec (c : Cfg α) (p : Patch α) (hp : p.Ok c) : ∃ off map, count_sort c p = some (off, map) ∧
    ∀ j k, InPatch c j → k < c.nk →
      off (si c (j, k) + 1) = off (si c (j, k)) + (group c p j k).length ∧
      ∀ n (hn : n < (group c p j k).length),
        (map (off (si c (j, k)) + n)).bind (fun i => p.prts[i]?) = some (group c p j k)[n] := by
  set l := (List.range p.prts.length).filter fun n => p.sel n with hl
  let f : ℕ → ℕ := fun n => match p.prts[n]? with
    | some x => si c (cellOf c x, c.kind x)
    | none => 0
  have hlt : ∀ n ∈ l, n < p.prts.length := by
    intro n hn
    rw [hl, List.mem_filter, List.mem_range] at hn
    exact hn.1
  have hsel : ∀ n ∈ l, ∀ x, p.prts[n]? = some x → InPatch c (cellOf c x) ∧ c.kind x < c.nk := by
    intro n hn x hx
    apply hp
    unfold selected
    rw [List.mem_filterMap]
    exact ⟨n, hn, hx⟩
  have hmap : l.mapM (fun n => (p.prts[n]?).bind (get_sort_index c)) = some (l.map f) := by
    apply Bndp.mapM_some
    intro n hn
    have hn' := hlt n hn
    have h1 : p.prts[n]? = some p.prts[n] := List.getElem?_eq_getElem hn'
    have h2 := hsel n hn _ h1
    simp only [f, h1, Option.bind_some]
    exact get_sort_index_ok c _ h2.1 h2.2
  set all : List (ℕ × ℕ) := l.map fun n => (n, f n) with hall
  have hzip : l.zip (l.map f) = all := by
    rw [hall]
    clear * -
    induction l with
    | nil => rfl
    | cons a l ih => simp [ih]
  have hsnd : l.map f = all.map Prod.snd := by rw [hall, List.map_map]; rfl
  have hN : ∀ x ∈ all, x.2 < nr_indices c + 1 := by
    intro x hx
    rw [hall, List.mem_map] at hx
    obtain ⟨n, hn, rfl⟩ := hx
    have hn' := hlt n hn
    have h1 : p.prts[n]? = some p.prts[n] := List.getElem?_eq_getElem hn'
    have h2 := hsel n hn _ h1
    simp only [f, h1]
    have := si_lt c _ _ h2.1 h2.2
    omega
  obtain ⟨ho, hc⟩ := Csort.offsets_eq (nr_indices c + 1) all
  obtain ⟨s', h1, h2⟩ := Csort.move_all hN all []
    (fun _ => none, (Csort.offsets (nr_indices c + 1) fun c => (Csort.cellF all c).length).1) rfl
    ⟨fun i hi => by simp only [hc, if_pos hi]; simp [Csort.cellF], fun i _ k hk => by simp [Csort.cellF] at hk⟩
  have hlen : all.length ≤ p.prts.length := by
    rw [hall, List.length_map, hl]
    exact le_trans (List.length_filter_le _ _) (by simp)
  have h1' := move1_mono hlen _ _ _ h1
  refine ⟨(Csort.offsets (nr_indices c + 1) fun c => (Csort.cellF all c).length).1, s'.1, ?_, ?_⟩
  · unfold count_sort
    simp only [Option.bind_eq_bind]
    rw [← hl, hmap]
    simp only [Option.bind_some]
    rw [hzip, hsnd, Csort.count_eq _ all hN]
    simp only [Option.bind_some]
    rw [h1']
    rfl
  · intro j k hj hk
    have hs := si_lt c j k hj hk
    have hg : (Csort.cellF all (si c (j, k))).map (fun x => p.prts[x.1]?) = (group c p j k).map some := by
      unfold Csort.cellF group selected
      rw [hall]
      apply filter_pairs p.prts _ f _ l hlt
      intro n hn x hx
      have h3 := hsel n hn x hx
      simp only [f, hx, decide_eq_true_eq]
      constructor
      · intro h4
        exact si_inj c _ _ _ _ h3.1 h3.2 hj hk h4
      · rintro ⟨rfl, rfl⟩; rfl
    have hglen : (Csort.cellF all (si c (j, k))).length = (group c p j k).length := by
      have := congrArg List.length hg
      simpa using this
    refine ⟨?_, ?_⟩
    · rw [hc, hc, if_pos (by omega), if_pos (by omega), Csort.off_succ, hglen]
    · intro n hn
      rw [hc, if_pos (by omega), h2.mem _ (by omega) n (by omega)]
      have h5 : ((Csort.cellF all (si c (j, k))).map (fun x => p.prts[x.1]?))[n]? = ((group c p j k).map some)[n]? := by rw [hg]
      rw [List.getElem?_eq_getElem (by simpa [hglen] using hn), List.getElem?_eq_getElem (by simpa using hn)] at h5
      simpa using h5

/-! ## copying the particles -/

theorem mem_cells (c : Cfg α) (hl : ∀ d, 0 ≤ c.ldims d) (off : I3) (j : I3) (k : ℕ) :
    (j, k) ∈ cells c off ↔ InPatch c j ∧ InBox c off j ∧ k < c.nk := by
  unfold cells
  simp only [List.mem_flatMap, mem_boxLoop, List.mem_map, List.mem_range, Prod.mk.injEq]
  constructor
  · rintro ⟨j', h1, k', h2, rfl, rfl⟩
    refine ⟨fun d => ?_, fun d => ?_, h2⟩ <;>
    · have := h1 d
      have := hl d
      unfold ilo ihi at *
      omega
  · rintro ⟨h1, h2, h3⟩
    refine ⟨j, fun d => ?_, k, h3, rfl, rfl⟩
    have := h1 d
    have := h2 d
    unfold ilo ihi
    omega

theorem cells_nodup (c : Cfg α) (off : I3) : (cells c off).Nodup := by
  unfold cells
  rw [List.nodup_flatMap]
  refine ⟨fun j _ => ?_, ?_⟩
  · apply List.Nodup.map _ List.nodup_range
    intro a b h
    simpa using h
  · refine (boxLoop_nodup _ _).imp ?_
    intro a b hab
    simp only [Function.onFun, List.disjoint_left, List.mem_map, not_exists, not_and]
    rintro x ⟨i, -, rfl⟩ i' - h
    simp only [Prod.mk.injEq] at h
    exact hab h.1.symm

/-- relative cell within the written part of a patch -/
def rel (c : Cfg α) (off : I3) (x : I3 × ℕ) : I3 := fun d => x.1 d - ilo c off d

theorem rel_bound (c : Cfg α) (off : I3) (x : I3 × ℕ) (hx : x ∈ cells c off) :
    (∀ d, 0 ≤ rel c off x d ∧ rel c off x d < ld c off d) ∧ x.2 < c.nk := by
  unfold cells at hx
  simp only [List.mem_flatMap, mem_boxLoop, List.mem_map, List.mem_range] at hx
  obtain ⟨j, h1, k, h2, rfl⟩ := hx
  refine ⟨fun d => ?_, h2⟩
  have := h1 d
  simp only [rel, ld]
  omega

theorem lin_bound (c : Cfg α) (off : I3) (x : I3 × ℕ) (hx : x ∈ cells c off) (e : ℕ) (he : e < 2) :
    0 ≤ lin (ld c off) c.nk (rel c off x) x.2 e ∧ lin (ld c off) c.nk (rel c off x) x.2 e < 2 * sz c off := by
  obtain ⟨h, hk⟩ := rel_bound c off x hx
  have h3 := radix_lt (c.nk : ℤ) x.2 e 2 (by omega) (by omega)
  have h2 := radix_lt _ _ _ _ (h 2) h3
  have h1 := radix_lt _ _ _ _ (h 1) h2
  have h0 := radix_lt _ _ _ _ (h 0) h1
  unfold lin sz
  refine ⟨h0.1, lt_of_lt_of_eq h0.2 (by ring)⟩

theorem lin_inj (c : Cfg α) (off : I3) (x y : I3 × ℕ) (hx : x ∈ cells c off) (hy : y ∈ cells c off) (e e' : ℕ)
    (h : lin (ld c off) c.nk (rel c off x) x.2 e = lin (ld c off) c.nk (rel c off y) y.2 e') : x = y ∧ e = e' := by
  obtain ⟨a, ka⟩ := rel_bound c off x hx
  obtain ⟨b, kb⟩ := rel_bound c off y hy
  unfold lin at h
  obtain ⟨e0, h⟩ := radix _ _ _ _ _ (a 0) (b 0) h
  obtain ⟨e1, h⟩ := radix _ _ _ _ _ (a 1) (b 1) h
  obtain ⟨e2, h⟩ := radix _ _ _ _ _ (a 2) (b 2) h
  obtain ⟨e3, h⟩ := radix (c.nk : ℤ) x.2 e y.2 e' (by omega) (by omega) h
  refine ⟨?_, by omega⟩
  apply Prod.ext
  · funext d
    simp only [rel] at e0 e1 e2
    fin_cases d
    · show x.1 0 = y.1 0; omega
    · show x.1 1 = y.1 1; omega
    · show x.1 2 = y.1 2; omega
  · omega

/-- the particles of a patch in output order -/
def G (c : Cfg α) (p : Patch α) : List α := (cells c p.off).flatMap fun x => group c p x.1 x.2

/-- number of particles of the cells `L` -/
def cnt (c : Cfg α) (p : Patch α) (L : List (I3 × ℕ)) : ℕ := (L.flatMap fun x => group c p x.1 x.2).length

/-- `m` holds the ranges of the cells in `L`, whose particles come one after the other from position `base` on -/
def Recs (c : Cfg α) (p : Patch α) (L : List (I3 × ℕ)) (m : Mem) (base : ℕ) : Prop :=
  ∀ L1 x L2, L = L1 ++ x :: L2 →
    m (lin (ld c p.off) c.nk (rel c p.off x) x.2 0) = some (base + cnt c p L1) ∧
    m (lin (ld c p.off) c.nk (rel c p.off x) x.2 1) = some (base + cnt c p L1 + (group c p x.1 x.2).length)

theorem copyStep_spec (c : Cfg α) (hl : ∀ d, 0 ≤ c.ldims d) (p : Patch α) (off : ℕ → ℕ) (map : ℕ → Option ℕ)
    (hs : ∀ j k, InPatch c j → k < c.nk →
      off (si c (j, k) + 1) = off (si c (j, k)) + (group c p j k).length ∧
      ∀ n (hn : n < (group c p j k).length),
        (map (off (si c (j, k)) + n)).bind (fun i => p.prts[i]?) = some (group c p j k)[n])
    (n_off : ℕ) (s : Mem × List α) (x : I3 × ℕ) (hx : x ∈ cells c p.off) :
    copyStep c p off map n_off s x = some
      (Function.update (Function.update s.1 (lin (ld c p.off) c.nk (rel c p.off x) x.2 0) (some (s.2.length + n_off)))
        (lin (ld c p.off) c.nk (rel c p.off x) x.2 1) (some (s.2.length + n_off + (group c p x.1 x.2).length)),
       s.2 ++ group c p x.1 x.2) := by
  obtain ⟨hj, -, hk⟩ := (mem_cells c hl p.off x.1 x.2).1 hx
  obtain ⟨h1, h2⟩ := hs x.1 x.2 hj hk
  have h3 : off (si c x + 1) - off (si c x) = (group c p x.1 x.2).length := by
    have : si c x = si c (x.1, x.2) := rfl
    rw [this]; omega
  unfold copyStep
  simp only [Option.bind_eq_bind]
  have b0 := lin_bound c p.off x hx 0 (by omega)
  have b1 := lin_bound c p.off x hx 1 (by omega)
  have hr : (fun d => x.1 d - ilo c p.off d) = rel c p.off x := rfl
  rw [hr]
  simp only [Mem.set]
  rw [if_pos b0]
  simp only [Option.bind_some]
  rw [if_pos b1]
  simp only [Option.bind_some]
  rw [h3, Csort.mapM_range (group c p x.1 x.2) id _ (fun n hn => h2 n hn), Nat.add_sub_assoc (by have : si c x = si c (x.1, x.2) := rfl; rw [this]; omega), h3]
  simp

theorem copyFold_spec (c : Cfg α) (hl : ∀ d, 0 ≤ c.ldims d) (p : Patch α) (off : ℕ → ℕ) (map : ℕ → Option ℕ)
    (hs : ∀ j k, InPatch c j → k < c.nk →
      off (si c (j, k) + 1) = off (si c (j, k)) + (group c p j k).length ∧
      ∀ n (hn : n < (group c p j k).length),
        (map (off (si c (j, k)) + n)).bind (fun i => p.prts[i]?) = some (group c p j k)[n])
    (n_off : ℕ) (suf : List (I3 × ℕ)) : ∀ (pre : List (I3 × ℕ)) (m : Mem) (arr0 arr : List α), (pre ++ suf).Nodup →
    (∀ x ∈ pre ++ suf, x ∈ cells c p.off) → arr = (pre.flatMap fun x => group c p x.1 x.2) → Recs c p pre m (arr0.length + n_off) →
    ∃ m', suf.foldlM (copyStep c p off map n_off) (m, arr0 ++ arr) =
        some (m', arr0 ++ arr ++ suf.flatMap fun x => group c p x.1 x.2) ∧
      Recs c p (pre ++ suf) m' (arr0.length + n_off) := by
  induction suf with
  | nil =>
    intro pre m arr0 arr hnd hin harr hr
    exact ⟨m, by simp, by simpa using hr⟩
  | cons x suf ih =>
    intro pre m arr0 arr hnd hin harr hr
    have hx := hin x (by simp)
    have hxp : x ∉ pre := by
      rw [List.nodup_append] at hnd
      intro h
      exact hnd.2.2 x h x (by simp) rfl
    rw [List.foldlM_cons, copyStep_spec c hl p off map hs n_off _ x hx]
    simp only [Option.bind_eq_bind, Option.bind_some, List.append_assoc]
    obtain ⟨m', h1, h2⟩ := ih (pre ++ [x])
      (Function.update (Function.update m (lin (ld c p.off) c.nk (rel c p.off x) x.2 0) (some ((arr0 ++ arr).length + n_off)))
        (lin (ld c p.off) c.nk (rel c p.off x) x.2 1) (some ((arr0 ++ arr).length + n_off + (group c p x.1 x.2).length)))
      arr0 (arr ++ group c p x.1 x.2) (by simpa using hnd) (by simpa using hin) (by simp [harr]) (by
        intro L1 y L2 hL
        rcases List.eq_nil_or_concat L2 with rfl | ⟨L2', z, rfl⟩
        rotate_left
        · have hL' : pre ++ [x] = (L1 ++ y :: L2') ++ [z] := by simpa using hL
          obtain ⟨hp, -⟩ := List.append_inj' hL' rfl
          obtain ⟨e2, e3⟩ := hr L1 y L2' hp
          have hy : y ∈ pre := by rw [hp]; simp
          have hyx : y ≠ x := fun h => hxp (h ▸ hy)
          have hyc := hin y (by simp [hy])
          refine ⟨?_, ?_⟩
          · rw [Function.update_of_ne (fun h => hyx (lin_inj c p.off y x hyc hx _ _ h).1),
              Function.update_of_ne (fun h => hyx (lin_inj c p.off y x hyc hx _ _ h).1), e2]
          · rw [Function.update_of_ne (fun h => hyx (lin_inj c p.off y x hyc hx _ _ h).1),
              Function.update_of_ne (fun h => hyx (lin_inj c p.off y x hyc hx _ _ h).1), e3]
        · obtain ⟨hp, hz⟩ := List.append_inj' hL rfl
          have hy : y = x := by simpa using hz.symm
          subst hy
          subst hp
          refine ⟨?_, ?_⟩
          · rw [Function.update_of_ne (fun h => by have := (lin_inj c p.off y y hx hx _ _ h).2; omega), Function.update_self]
            rw [harr]; unfold cnt; congr 1; rw [List.length_append]; omega
          · rw [Function.update_self]
            rw [harr]; unfold cnt; congr 1; rw [List.length_append]; omega)
    refine ⟨m', ?_, ?_⟩
    · rw [← List.append_assoc] at h1 ⊢
      simpa using h1
    · simpa using h2

theorem copyPatch_spec (c : Cfg α) (hl : ∀ d, 0 ≤ c.ldims d) (p : Patch α) (hp : p.Ok c) (n_off : ℕ) (arr : List α) :
    ∃ m, copyPatch c n_off arr p = some (m, arr ++ G c p) ∧ Recs c p (cells c p.off) m (arr.length + n_off) := by
  obtain ⟨off, map, h1, h2⟩ := count_sort_spec c p hp
  obtain ⟨m, h3, h4⟩ := copyFold_spec c hl p off map h2 n_off (cells c p.off) [] (fun _ => none) arr [] (cells_nodup _ _)
    (fun x hx => hx) rfl (fun L1 x L2 h => by simp at h)
  refine ⟨m, ?_, by simpa [G] using h4⟩
  unfold copyPatch
  simp only [Option.bind_eq_bind, h1, Option.bind_some]
  simpa [G] using h3

/-- memories of a rank's patches, whose particles start at `base` -/
def Mems (c : Cfg α) : List (Patch α) → List Mem → ℕ → Prop
  | [], [], _ => True
  | p :: ps, m :: ms, base => Recs c p (cells c p.off) m base ∧ Mems c ps ms (base + (G c p).length)
  | _, _, _ => False

theorem copyAll_spec (c : Cfg α) (hl : ∀ d, 0 ≤ c.ldims d) (n_off : ℕ) (ps : List (Patch α)) (hps : ∀ p ∈ ps, p.Ok c) :
    ∀ arr, ∃ ms, copyAll c n_off ps arr = some (ms, arr ++ ps.flatMap (G c)) ∧ Mems c ps ms (arr.length + n_off) := by
  induction ps with
  | nil => intro arr; exact ⟨[], by simp [copyAll], trivial⟩
  | cons p ps ih =>
    intro arr
    obtain ⟨m, h1, h2⟩ := copyPatch_spec c hl p (hps p (by simp)) n_off arr
    obtain ⟨ms, h3, h4⟩ := ih (fun q hq => hps q (by simp [hq])) (arr ++ G c p)
    refine ⟨m :: ms, ?_, h2, ?_⟩
    · simp [copyAll, h1, h3]
    · rw [List.length_append] at h4
      rwa [show arr.length + (G c p).length + n_off = arr.length + n_off + (G c p).length by omega] at h4

theorem n_write_spec (c : Cfg α) (hl : ∀ d, 0 ≤ c.ldims d) (ps : List (Patch α)) (hps : ∀ p ∈ ps, p.Ok c) :
    n_write c ps = some (ps.flatMap (G c)).length := by
  unfold n_write
  rw [Bndp.mapM_some _ (fun p => (G c p).length) ps]
  · simp [List.length_flatMap]
  · intro p hp
    obtain ⟨off, map, h1, h2⟩ := count_sort_spec c p (hps p hp)
    simp only [h1, Option.bind_eq_bind, Option.bind_some, Option.pure_def, Option.some.injEq]
    unfold G
    rw [List.length_flatMap]
    congr 1
    apply List.map_congr_left
    intro x hx
    obtain ⟨hj, -, hk⟩ := (mem_cells c hl p.off x.1 x.2).1 hx
    have := (h2 x.1 x.2 hj hk).1
    have h3 : si c x = si c (x.1, x.2) := rfl
    rw [h3]; omega

theorem nOff_spec (c : Cfg α) (hl : ∀ d, 0 ≤ c.ldims d) (ranks : List (List (Patch α)))
    (hps : ∀ ps ∈ ranks, ∀ p ∈ ps, p.Ok c) (r : ℕ) :
    nOff c ranks r = some ((ranks.take r).flatMap fun ps => ps.flatMap (G c)).length := by
  unfold nOff
  rw [Bndp.mapM_some _ (fun ps => (ps.flatMap (G c)).length) (ranks.take r)]
  · simp [List.length_flatMap]
  · intro ps h
    exact n_write_spec c hl ps (hps ps (List.mem_of_mem_take h))

theorem rankOut_spec (c : Cfg α) (hl : ∀ d, 0 ≤ c.ldims d) (ranks : List (List (Patch α)))
    (hps : ∀ ps ∈ ranks, ∀ p ∈ ps, p.Ok c) (r : ℕ) (hr : r < ranks.length) :
    ∃ ms, rankOut c ranks r = some (ms, ranks[r].flatMap (G c)) ∧
      Mems c ranks[r] ms ((ranks.take r).flatMap fun ps => ps.flatMap (G c)).length := by
  obtain ⟨ms, h1, h2⟩ := copyAll_spec c hl ((ranks.take r).flatMap fun ps => ps.flatMap (G c)).length ranks[r]
    (hps _ (List.getElem_mem hr)) []
  refine ⟨ms, ?_, by simpa using h2⟩
  unfold rankOut
  simp only [List.getElem?_eq_getElem hr, Option.bind_eq_bind, Option.bind_some, nOff_spec c hl ranks hps r]
  simpa using h1

/-! ## the index table -/

/-- table position of cell `x` -/
def tpos (c : Cfg α) (off : I3) (x : I3 × ℕ) : I3 := fun d => x.1 d + off d - c.lo d

/-- patch with offset `off` has no entry at table position `i`, kind `k` -/
def Away (c : Cfg α) (off : I3) (i : I3) (k : ℕ) : Prop := ∀ x ∈ cells c off, ¬ (i = tpos c off x ∧ k = x.2)

theorem tpos_inj (c : Cfg α) (off : I3) (x y : I3 × ℕ) (h : tpos c off x = tpos c off y ∧ x.2 = y.2) : x = y := by
  refine Prod.ext (funext fun d => ?_) h.2
  have := congrFun h.1 d
  simp only [tpos] at this
  omega

theorem table_fold (c : Cfg α) (off : I3) (step : Table → I3 × ℕ → Option Table) (bv ev : I3 × ℕ → ℕ) (L : List (I3 × ℕ))
    (h : ∀ t, ∀ x ∈ L, step t x = t.set c (tpos c off x) x.2 (bv x) (ev x))
    (hb : ∀ x ∈ L, (∀ d, 0 ≤ tpos c off x d ∧ tpos c off x d < c.hi d - c.lo d) ∧ x.2 < c.nk) :
    ∀ t, ∃ t', L.foldlM step t = some t' ∧
      (∀ x ∈ L, t'.1 (tpos c off x) x.2 = some (bv x) ∧ t'.2 (tpos c off x) x.2 = some (ev x)) ∧
      ∀ i k, (∀ x ∈ L, ¬ (i = tpos c off x ∧ k = x.2)) → t'.1 i k = t.1 i k ∧ t'.2 i k = t.2 i k := by
  induction L with
  | nil => intro t; exact ⟨t, rfl, by simp, fun _ _ _ => ⟨rfl, rfl⟩⟩
  | cons x L ih =>
    intro t
    have hx := h t x (by simp)
    rw [Table.set, if_pos (hb x (by simp))] at hx
    obtain ⟨t', h1, h2, h3⟩ := ih (fun t y hy => h t y (by simp [hy])) (fun y hy => hb y (by simp [hy]))
      (fun j k => if j = tpos c off x ∧ k = x.2 then some (bv x) else t.1 j k,
       fun j k => if j = tpos c off x ∧ k = x.2 then some (ev x) else t.2 j k)
    refine ⟨t', ?_, ?_, ?_⟩
    · rw [List.foldlM_cons, hx]
      exact h1
    · intro y hy
      by_cases hyL : y ∈ L
      · exact h2 y hyL
      · have hyx : y = x := by
          rcases List.mem_cons.1 hy with h | h
          · exact h
          · exact absurd h hyL
        subst hyx
        obtain ⟨a, b⟩ := h3 (tpos c off y) y.2 (fun z hz hh => hyL (by rwa [tpos_inj c off y z hh]))
        rw [a, b]
        simp
    · intro i k hik
      obtain ⟨a, b⟩ := h3 i k (fun z hz => hik z (by simp [hz]))
      rw [a, b]
      have := hik x (by simp)
      simp [this]

/-- the table has the ranges of the patches `ps`, whose particles start at `base` -/
def Entries (c : Cfg α) (t : Table) : List (Patch α) → ℕ → Prop
  | [], _ => True
  | p :: ps, base => (∀ L1 x L2, cells c p.off = L1 ++ x :: L2 →
      t.1 (tpos c p.off x) x.2 = some (base + cnt c p L1) ∧
      t.2 (tpos c p.off x) x.2 = some (base + cnt c p L1 + (group c p x.1 x.2).length)) ∧
    Entries c t ps (base + (G c p).length)

theorem Entries.keep (c : Cfg α) (t t' : Table) (ps : List (Patch α))
    (h : ∀ p ∈ ps, ∀ x ∈ cells c p.off, t'.1 (tpos c p.off x) x.2 = t.1 (tpos c p.off x) x.2 ∧
      t'.2 (tpos c p.off x) x.2 = t.2 (tpos c p.off x) x.2) :
    ∀ base, Entries c t ps base → Entries c t' ps base := by
  induction ps with
  | nil => intro base _; trivial
  | cons p ps ih =>
    intro base hh
    refine ⟨fun L1 x L2 hx => ?_, ih (fun q hq => h q (by simp [hq])) _ hh.2⟩
    obtain ⟨h2, h3⟩ := hh.1 L1 x L2 hx
    obtain ⟨a, b⟩ := h p (by simp) x (by rw [hx]; simp)
    exact ⟨a ▸ h2, b ▸ h3⟩

/-- two patches have no cell in common -/
def Apart (c : Cfg α) (p q : Patch α) : Prop := ∀ j j', InPatch c j → InPatch c j' → (fun d => j d + p.off d) ≠ fun d => j' d + q.off d

theorem Apart.symm {c : Cfg α} {p q : Patch α} (h : Apart c p q) : Apart c q p :=
  fun j j' hj hj' e => h j' j hj' hj e.symm

theorem Apart.away (c : Cfg α) (hl : ∀ d, 0 ≤ c.ldims d) {p q : Patch α} (h : Apart c p q) (x : I3 × ℕ) (hx : x ∈ cells c p.off) :
    Away c q.off (tpos c p.off x) x.2 := by
  rintro y hy ⟨e, -⟩
  refine h x.1 y.1 ((mem_cells c hl _ _ _).1 hx).1 ((mem_cells c hl _ _ _).1 hy).1 (funext fun d => ?_)
  have := congrFun e d
  simp only [tpos] at this
  omega

theorem tpos_bound (c : Cfg α) (hl : ∀ d, 0 ≤ c.ldims d) (off : I3) (x : I3 × ℕ) (hx : x ∈ cells c off) :
    (∀ d, 0 ≤ tpos c off x d ∧ tpos c off x d < c.hi d - c.lo d) ∧ x.2 < c.nk := by
  obtain ⟨-, h, hk⟩ := (mem_cells c hl off x.1 x.2).1 hx
  refine ⟨fun d => ?_, hk⟩
  have := h d
  simp only [tpos]
  omega

/-- first component chosen by `Recs` -/
theorem Recs.vals (c : Cfg α) (p : Patch α) (m : Mem) (base : ℕ) (h : Recs c p (cells c p.off) m base) :
    ∃ bv ev : I3 × ℕ → ℕ, ∀ x ∈ cells c p.off,
      m (lin (ld c p.off) c.nk (rel c p.off x) x.2 0) = some (bv x) ∧ m (lin (ld c p.off) c.nk (rel c p.off x) x.2 1) = some (ev x) ∧
      ∀ L1 L2, cells c p.off = L1 ++ x :: L2 →
        bv x = base + cnt c p L1 ∧ ev x = base + cnt c p L1 + (group c p x.1 x.2).length := by
  refine ⟨fun x => (m (lin (ld c p.off) c.nk (rel c p.off x) x.2 0)).getD 0,
    fun x => (m (lin (ld c p.off) c.nk (rel c p.off x) x.2 1)).getD 0, fun x hx => ?_⟩
  obtain ⟨L1, L2, hL⟩ := List.append_of_mem hx
  obtain ⟨h2, h3⟩ := h L1 x L2 hL
  refine ⟨by simp [h2], by simp [h3], fun L1 L2 hL => ?_⟩
  obtain ⟨h2, h3⟩ := h L1 x L2 hL
  exact ⟨by simp [h2], by simp [h3]⟩

theorem localPatch_spec (c : Cfg α) (hl : ∀ d, 0 ≤ c.ldims d) (p : Patch α) (hlo : ∀ d, c.lo d ≤ p.off d) (m : Mem) (base : ℕ)
    (h : Recs c p (cells c p.off) m base) (t : Table) :
    ∃ t', (cells c p.off).foldlM (localStep c p m) t = some t' ∧ Entries c t' [p] base ∧
      ∀ i k, Away c p.off i k → t'.1 i k = t.1 i k ∧ t'.2 i k = t.2 i k := by
  obtain ⟨bv, ev, hv⟩ := Recs.vals c p m base h
  have hilo : ∀ d, ilo c p.off d = 0 := by
    intro d
    have := hlo d
    have := hl d
    unfold ilo
    omega
  obtain ⟨t', h1, h2, h3⟩ := table_fold c p.off (localStep c p m) bv ev (cells c p.off) (by
      intro t x hx
      have hr : rel c p.off x = x.1 := by
        funext d
        simp [rel, hilo d]
      obtain ⟨h1, h2, -⟩ := hv x hx
      have b0 := lin_bound c p.off x hx 0 (by omega)
      have b1 := lin_bound c p.off x hx 1 (by omega)
      rw [hr] at h1 h2 b0 b1
      unfold localStep
      simp only [Option.bind_eq_bind, Mem.get]
      rw [if_pos b0, h1, Option.bind_some, if_pos b1, h2, Option.bind_some]
      rfl) (fun x hx => tpos_bound c hl p.off x hx) t
  refine ⟨t', h1, ⟨fun L1 x L2 hL => ?_, trivial⟩, fun i k hik => h3 i k hik⟩
  have hx : x ∈ cells c p.off := by rw [hL]; simp
  obtain ⟨-, -, hh⟩ := hv x hx
  obtain ⟨e2, e3⟩ := hh L1 L2 hL
  obtain ⟨a, b⟩ := h2 x hx
  exact ⟨by rw [a, e2], by rw [b, e3]⟩

theorem localPart_spec (c : Cfg α) (hl : ∀ d, 0 ≤ c.ldims d) (ps : List (Patch α)) (hlo : ∀ p ∈ ps, ∀ d, c.lo d ≤ p.off d)
    (hap : ps.Pairwise (Apart c)) : ∀ (ms : List Mem) (base : ℕ), Mems c ps ms base → ∀ t : Table,
    ∃ t', localPart c ps ms t = some t' ∧ Entries c t' ps base ∧
      ∀ i k, (∀ p ∈ ps, Away c p.off i k) → t'.1 i k = t.1 i k ∧ t'.2 i k = t.2 i k := by
  induction ps with
  | nil =>
    intro ms base hm t
    exact ⟨t, by simp [localPart], trivial, fun _ _ _ => ⟨rfl, rfl⟩⟩
  | cons p ps ih =>
    intro ms base hm t
    cases ms with
    | nil => exact hm.elim
    | cons m ms =>
      rw [List.pairwise_cons] at hap
      obtain ⟨t1, h1, h2, h3⟩ := localPatch_spec c hl p (hlo p (by simp)) m base hm.1 t
      obtain ⟨t2, k1, k2, k3⟩ := ih (fun q hq => hlo q (by simp [hq])) hap.2 ms _ hm.2 t1
      refine ⟨t2, by simp [localPart, h1, k1], ⟨?_, k2⟩, ?_⟩
      · refine (Entries.keep c t1 t2 [p] ?_ base h2).1
        intro q hq x hx
        simp only [List.mem_singleton] at hq
        subst hq
        exact k3 _ _ (fun q hq => (hap.1 q hq).away c hl x hx)
      · intro i k hik
        obtain ⟨a, b⟩ := k3 i k (fun q hq => hik q (by simp [hq]))
        obtain ⟨a', b'⟩ := h3 i k (hik p (by simp))
        exact ⟨a.trans a', b.trans b'⟩

theorem remotePatch_spec (c : Cfg α) (hl : ∀ d, 0 ≤ c.ldims d) (p : Patch α) (m : Mem) (base : ℕ)
    (h : Recs c p (cells c p.off) m base) (buf rest : List (Option ℕ)) (ptr : ℕ)
    (hbuf : buf.drop ptr = ((List.range (2 * sz c p.off).toNat).map fun i : ℕ => m i) ++ rest) (t : Table) :
    ∃ t', (cells c p.off).foldlM (remoteStep c p.off buf ptr) t = some t' ∧ Entries c t' [p] base ∧
      ∀ i k, Away c p.off i k → t'.1 i k = t.1 i k ∧ t'.2 i k = t.2 i k := by
  obtain ⟨bv, ev, hv⟩ := Recs.vals c p m base h
  have hget : ∀ i : ℤ, 0 ≤ i → i < 2 * sz c p.off → buf[ptr + i.toNat]? = some (m i) := by
    intro i h0 h1
    rw [← List.getElem?_drop, hbuf, List.getElem?_append_left (by simp; omega)]
    rw [List.getElem?_map, List.getElem?_range (by omega)]
    simp [Int.toNat_of_nonneg h0]
  obtain ⟨t', h1, h2, h3⟩ := table_fold c p.off (remoteStep c p.off buf ptr) bv ev (cells c p.off) (by
      intro t x hx
      obtain ⟨h1, h2, -⟩ := hv x hx
      have b0 := lin_bound c p.off x hx 0 (by omega)
      have b1 := lin_bound c p.off x hx 1 (by omega)
      have e0 : ((x.2 * ld c p.off 2 + x.1 2 - ilo c p.off 2) * ld c p.off 1 + x.1 1 - ilo c p.off 1) * ld c p.off 0 + x.1 0 - ilo c p.off 0
          = lin (ld c p.off) c.nk (rel c p.off x) x.2 0 := by
        unfold lin rel
        push_cast
        ring
      have e1 : lin (ld c p.off) c.nk (rel c p.off x) x.2 0 + sz c p.off = lin (ld c p.off) c.nk (rel c p.off x) x.2 1 := by
        unfold lin sz
        push_cast
        ring
      unfold remoteStep
      simp only [Option.bind_eq_bind]
      rw [e0, e1, if_pos ⟨b0.1, b1.1⟩, hget _ b0.1 b0.2, hget _ b1.1 b1.2, h1, h2]
      rfl) (fun x hx => tpos_bound c hl p.off x hx) t
  refine ⟨t', h1, ⟨fun L1 x L2 hL => ?_, trivial⟩, fun i k hik => h3 i k hik⟩
  have hx : x ∈ cells c p.off := by rw [hL]; simp
  obtain ⟨-, -, hh⟩ := hv x hx
  obtain ⟨e2, e3⟩ := hh L1 L2 hL
  obtain ⟨a, b⟩ := h2 x hx
  exact ⟨by rw [a, e2], by rw [b, e3]⟩

theorem remoteRank_spec (c : Cfg α) (hl : ∀ d, 0 ≤ c.ldims d) (bufs : ℕ → List (Option ℕ)) (r : ℕ) (hr : r ≠ 0)
    (gs : List (ℕ × I3)) (ps : List (Patch α)) (hap : ps.Pairwise (Apart c)) :
    ∀ (ms : List Mem) (base : ℕ) (ptr : ℕ → ℕ), Mems c ps ms base → (bufs r).drop (ptr r) = sendBuf c ps ms → ∀ t : Table,
    ∃ t' ptr', remotePart c bufs ((ps.map fun p => (r, p.off)) ++ gs) ptr t = remotePart c bufs gs ptr' t' ∧
      (∀ r', r' ≠ r → ptr' r' = ptr r') ∧ Entries c t' ps base ∧
      ∀ i k, (∀ p ∈ ps, Away c p.off i k) → t'.1 i k = t.1 i k ∧ t'.2 i k = t.2 i k := by
  induction ps with
  | nil =>
    intro ms base ptr hm hb t
    exact ⟨t, ptr, by simp, fun _ _ => rfl, trivial, fun _ _ _ => ⟨rfl, rfl⟩⟩
  | cons p ps ih =>
    intro ms base ptr hm hb t
    cases ms with
    | nil => exact hm.elim
    | cons m ms =>
      rw [List.pairwise_cons] at hap
      obtain ⟨t1, h1, h2, h3⟩ := remotePatch_spec c hl p m base hm.1 (bufs r) (sendBuf c ps ms) (ptr r) hb t
      obtain ⟨t2, ptr', k1, kp, k2, k3⟩ := ih hap.2 ms _ (Function.update ptr r (ptr r + (2 * sz c p.off).toNat)) hm.2 (by
        rw [Function.update_self, ← List.drop_drop, hb]
        simp only [sendBuf]
        rw [List.drop_append_of_le_length (by simp)]
        simp) t1
      refine ⟨t2, ptr', ?_, ?_, ⟨?_, k2⟩, ?_⟩
      · rw [← k1]
        simp [remotePart, hr, h1]
      · intro r' hr'
        rw [kp r' hr', Function.update_of_ne hr']
      · refine (Entries.keep c t1 t2 [p] ?_ base h2).1
        intro q hq x hx
        simp only [List.mem_singleton] at hq
        subst hq
        exact k3 _ _ (fun q hq => (hap.1 q hq).away c hl x hx)
      · intro i k hik
        obtain ⟨a, b⟩ := k3 i k (fun q hq => hik q (by simp [hq]))
        obtain ⟨a', b'⟩ := h3 i k (hik p (by simp))
        exact ⟨a.trans a', b.trans b'⟩

theorem remoteZero_spec (c : Cfg α) (bufs : ℕ → List (Option ℕ)) (gs : List (ℕ × I3)) (ps : List (Patch α)) (ptr : ℕ → ℕ)
    (t : Table) : remotePart c bufs ((ps.map fun p => (0, p.off)) ++ gs) ptr t = remotePart c bufs gs ptr t := by
  induction ps with
  | nil => simp
  | cons p ps ih => simpa [remotePart] using ih

theorem remoteAll_spec (c : Cfg α) (hl : ∀ d, 0 ≤ c.ldims d) (bufs : ℕ → List (Option ℕ)) (P : ℕ → List (Patch α)) (M : ℕ → List Mem)
    (base : ℕ → ℕ) (hap : ∀ r, (P r).Pairwise (Apart c)) (hap2 : ∀ r r', r ≠ r' → ∀ p ∈ P r, ∀ q ∈ P r', Apart c p q)
    (hm : ∀ r, Mems c (P r) (M r) (base r)) (hb : ∀ r, bufs r = sendBuf c (P r) (M r)) (rs : List ℕ) (hnd : rs.Nodup) :
    ∀ (ptr : ℕ → ℕ) (t : Table), (∀ r ∈ rs, ptr r = 0) →
    ∃ t', remotePart c bufs (rs.flatMap fun r => (P r).map fun p => (r, p.off)) ptr t = some t' ∧
      (∀ r ∈ rs, r ≠ 0 → Entries c t' (P r) (base r)) ∧
      ∀ i k, (∀ r ∈ rs, r ≠ 0 → ∀ p ∈ P r, Away c p.off i k) → t'.1 i k = t.1 i k ∧ t'.2 i k = t.2 i k := by
  induction rs with
  | nil => intro ptr t _; exact ⟨t, by simp [remotePart], by simp, fun _ _ _ => ⟨rfl, rfl⟩⟩
  | cons r rs ih =>
    intro ptr t hptr
    rw [List.nodup_cons] at hnd
    rw [List.flatMap_cons]
    by_cases hr : r = 0
    · subst hr
      rw [remoteZero_spec]
      obtain ⟨t', h1, h2, h3⟩ := ih hnd.2 ptr t (fun r hr => hptr r (by simp [hr]))
      refine ⟨t', h1, ?_, fun i k hik => h3 i k (fun r hr => hik r (by simp [hr]))⟩
      intro r hr h0
      rcases List.mem_cons.1 hr with h | h
      · exact absurd h h0
      · exact h2 r h h0
    · obtain ⟨t1, ptr', h1, hp, h2, h3⟩ := remoteRank_spec c hl bufs r hr (rs.flatMap fun r => (P r).map fun p => (r, p.off)) (P r)
        (hap r) (M r) (base r) ptr (hm r) (by rw [hptr r (by simp), List.drop_zero, hb]) t
      obtain ⟨t2, k1, k2, k3⟩ := ih hnd.2 ptr' t1 (fun r' hr' => by
        rw [hp r' (fun e => hnd.1 (e ▸ hr')), hptr r' (by simp [hr'])])
      refine ⟨t2, by rw [h1, k1], ?_, ?_⟩
      · intro r' hr' h0
        rcases List.mem_cons.1 hr' with h | h
        · subst h
          refine Entries.keep c t1 t2 (P r') ?_ (base r') h2
          intro q hq x hx
          exact k3 _ _ (fun r'' hr'' _ q' hq' => (hap2 r' r'' (fun e => hnd.1 (e ▸ hr'')) q hq q' hq').away c hl x hx)
        · exact k2 r' h h0
      · intro i k hik
        obtain ⟨a, b⟩ := k3 i k (fun r' hr' => hik r' (by simp [hr']))
        obtain ⟨a', b'⟩ := h3 i k (hik r (by simp) hr)
        exact ⟨a.trans a', b.trans b'⟩

theorem findSome_congr {β γ : Type} (f g : β → Option γ) (l : List β) (h : ∀ x ∈ l, f x = g x) : l.findSome? f = l.findSome? g := by
  induction l with
  | nil => rfl
  | cons a l ih => rw [List.findSome?_cons, List.findSome?_cons, h a (by simp), ih (fun x hx => h x (by simp [hx]))]

/-- reading the particle dataset -/
theorem dataset_get {β : Type} (L : List (List β)) (n : ℕ) :
    ((List.range L.length).findSome? fun r => if (L.take r).flatten.length ≤ n then
      (L[r]?.getD [])[n - (L.take r).flatten.length]? else none) = L.flatten[n]? := by
  induction L using List.reverseRecOn with
  | nil => simp
  | append_singleton L a ih =>
    rw [List.length_append, List.length_singleton, List.range_succ, List.findSome?_append, List.flatten_append]
    have hc : ((List.range L.length).findSome? fun r => if ((L ++ [a]).take r).flatten.length ≤ n then
        ((L ++ [a])[r]?.getD [])[n - ((L ++ [a]).take r).flatten.length]? else none) =
      ((List.range L.length).findSome? fun r => if (L.take r).flatten.length ≤ n then
        (L[r]?.getD [])[n - (L.take r).flatten.length]? else none) := by
      apply findSome_congr
      intro r hr
      rw [List.mem_range] at hr
      rw [List.take_append_of_le_length (by omega), List.getElem?_append_left hr]
    rw [hc, ih]
    by_cases h : n < L.flatten.length
    · rw [List.getElem?_append_left h, List.getElem?_eq_getElem h]
      simp
    · push Not at h
      rw [List.getElem?_append_right h, List.getElem?_eq_none h]
      rw [List.findSome?_singleton, List.take_append_of_le_length (le_refl _), List.take_length, if_pos h]
      simp

/-- what the output writes: the particles of all patches in order, and the table of ranges -/
theorem output_spec (c : Cfg α) (hl : ∀ d, 0 ≤ c.ldims d) (ranks : List (List (Patch α)))
    (hps : ∀ ps ∈ ranks, ∀ p ∈ ps, p.Ok c) (hap : ranks.flatten.Pairwise (Apart c))
    (hlo : ∀ p ∈ ranks[0]?.getD [], ∀ d, c.lo d ≤ p.off d) :
    ∃ f, output c ranks = some f ∧ f.n_total = (ranks.flatMap fun ps => ps.flatMap (G c)).length ∧
      (∀ n, f.prts n = (ranks.flatMap fun ps => ps.flatMap (G c))[n]?) ∧
      ∀ r (hr : r < ranks.length), Entries c (f.idx_begin, f.idx_end) ranks[r]
        ((ranks.take r).flatMap fun ps => ps.flatMap (G c)).length := by
  set base : ℕ → ℕ := fun r => ((ranks.take r).flatMap fun ps => ps.flatMap (G c)).length with hbase
  have hex : ∀ r, ∃ ms, r < ranks.length → rankOut c ranks r = some (ms, (ranks[r]?.getD []).flatMap (G c)) ∧
      Mems c (ranks[r]?.getD []) ms (base r) := by
    intro r
    by_cases hr : r < ranks.length
    · obtain ⟨ms, h1, h2⟩ := rankOut_spec c hl ranks hps r hr
      refine ⟨ms, fun _ => ?_⟩
      rw [List.getElem?_eq_getElem hr, Option.getD_some]
      exact ⟨h1, h2⟩
    · exact ⟨[], fun h => absurd h hr⟩
  choose M hM using hex
  set P : ℕ → List (Patch α) := fun r => ranks[r]?.getD [] with hP
  have hout : ((List.range ranks.length).mapM (rankOut c ranks)) =
      some ((List.range ranks.length).map fun r => (M r, (P r).flatMap (G c))) :=
    Bndp.mapM_some _ _ _ (fun r hr => (hM r (List.mem_range.1 hr)).1)
  have hoff : ((List.range ranks.length).mapM (nOff c ranks)) = some ((List.range ranks.length).map base) :=
    Bndp.mapM_some _ _ _ (fun r _ => nOff_spec c hl ranks hps r)
  rw [List.pairwise_flatten] at hap
  have hap1 : ∀ r, (P r).Pairwise (Apart c) := by
    intro r
    by_cases hr : r < ranks.length
    · simp only [hP, List.getElem?_eq_getElem hr, Option.getD_some]
      exact hap.1 _ (List.getElem_mem hr)
    · simp [hP, List.getElem?_eq_none (not_lt.1 hr)]
  have hap3 : ∀ r r', r < r' → ∀ p ∈ P r, ∀ q ∈ P r', Apart c p q := by
    intro r r' hlt p hp q hq
    by_cases hr : r' < ranks.length
    · have hr2 : r < ranks.length := by omega
      simp only [hP, List.getElem?_eq_getElem hr, List.getElem?_eq_getElem hr2, Option.getD_some] at hp hq
      exact List.pairwise_iff_getElem.1 hap.2 r r' hr2 hr hlt p hp q hq
    · simp [hP, List.getElem?_eq_none (not_lt.1 hr)] at hq
  have hap2 : ∀ r r', r ≠ r' → ∀ p ∈ P r, ∀ q ∈ P r', Apart c p q := by
    intro r r' hne p hp q hq
    rcases lt_or_gt_of_ne hne with h | h
    · exact hap3 r r' h p hp q hq
    · exact (hap3 r' r h q hq p hp).symm
  let M' : ℕ → List Mem := fun r => if r < ranks.length then M r else []
  have hM' : ∀ r, Mems c (P r) (M' r) (base r) := by
    intro r
    by_cases hr : r < ranks.length
    · simp only [M', if_pos hr]
      exact (hM r hr).2
    · simp only [M', if_neg hr, hP, List.getElem?_eq_none (not_lt.1 hr), Option.getD_none]
      trivial
  have hMem : ∀ r, ((((List.range ranks.length).map fun r => (M r, (P r).flatMap (G c)))[r]?.map (·.1)).getD []) = M' r := by
    intro r
    by_cases hr : r < ranks.length
    · simp [M', hr]
    · simp [M', hr]
  obtain ⟨t1, h1, h2, h3⟩ := localPart_spec c hl (P 0) hlo (hap1 0) (M' 0) (base 0) (hM' 0) (fun _ _ => none, fun _ _ => none)
  obtain ⟨t2, k1, k2, k3⟩ := remoteAll_spec c hl (fun r => sendBuf c (P r) (M' r)) P M' base hap1 hap2 hM' (fun r => rfl)
    (List.range ranks.length) List.nodup_range (fun _ => 0) t1 (fun _ _ => rfl)
  refine ⟨{ idx_begin := t2.1, idx_end := t2.2, n_total := ((ranks.take ranks.length).flatMap fun ps => ps.flatMap (G c)).length,
            prts := fun n => (List.range ranks.length).findSome? fun r =>
             if ((List.range ranks.length).map base)[r]?.getD 0 ≤ n then
               ((((List.range ranks.length).map fun r => (M r, (P r).flatMap (G c)))[r]?.map (·.2)).getD [])[n -
                 ((List.range ranks.length).map base)[r]?.getD 0]? else none }, ?_, ?_, ?_, ?_⟩
  · unfold output
    simp only [Option.bind_eq_bind, hout, hoff, Option.bind_some, nOff_spec c hl ranks hps ranks.length, hMem]
    rw [show localPart c (ranks[0]?.getD []) (M' 0) (fun _ _ => none, fun _ _ => none) = some t1 from h1]
    simp only [Option.bind_some]
    rw [show remotePart c (fun r => sendBuf c (ranks[r]?.getD []) (M' r)) (globalPatches ranks) (fun _ => 0) t1 = some t2 from k1]
    rfl
  · simp
  · intro n
    have hd := dataset_get (ranks.map fun ps => ps.flatMap (G c)) n
    rw [← List.flatMap_def] at hd
    rw [← hd, List.length_map]
    apply findSome_congr
    intro r hr
    rw [List.mem_range] at hr
    simp [hr, hP, base, ← List.map_take, List.flatMap_def]
  · intro r hr
    have hPr : P r = ranks[r] := by simp [hP, List.getElem?_eq_getElem hr]
    rw [← hPr]
    by_cases h0 : r = 0
    · subst h0
      refine Entries.keep c t1 t2 (P 0) ?_ (base 0) h2
      intro q hq x hx
      exact k3 _ _ (fun r'' _ h0 q' hq' => (hap2 0 r'' (Ne.symm h0) q hq q' hq').away c hl x hx)
    · exact k2 r (List.mem_range.2 hr) h0

/-! ## reading the file -/

theorem Entries.at (c : Cfg α) (t : Table) (p : Patch α) (P2 : List (Patch α)) : ∀ (P1 : List (Patch α)) (base : ℕ),
    Entries c t (P1 ++ p :: P2) base → ∀ L1 x L2, cells c p.off = L1 ++ x :: L2 →
    t.1 (tpos c p.off x) x.2 = some (base + (P1.flatMap (G c)).length + cnt c p L1) ∧
    t.2 (tpos c p.off x) x.2 = some (base + (P1.flatMap (G c)).length + cnt c p L1 + (group c p x.1 x.2).length) := by
  intro P1
  induction P1 with
  | nil => intro base h L1 x L2 hL; simpa using h.1 L1 x L2 hL
  | cons q P1 ih =>
    intro base h L1 x L2 hL
    have := ih _ h.2 L1 x L2 hL
    rw [List.flatMap_cons, List.length_append, ← Nat.add_assoc]
    exact this

/-- a position in a concatenation lies in exactly one of the parts -/
theorem flatMap_pos {β γ : Type} (f : β → List γ) (l : List β) (n : ℕ) : n < (l.flatMap f).length →
    ∃ l1 x l2, l = l1 ++ x :: l2 ∧ (l1.flatMap f).length ≤ n ∧ n < (l1.flatMap f).length + (f x).length := by
  induction l generalizing n with
  | nil => intro h; simp at h
  | cons a l ih =>
    intro h
    rw [List.flatMap_cons, List.length_append] at h
    by_cases h1 : n < (f a).length
    · exact ⟨[], a, l, rfl, by simp, by simpa using h1⟩
    · obtain ⟨l1, x, l2, e, e1, e2⟩ := ih (n - (f a).length) (by omega)
      refine ⟨a :: l1, x, l2, by simp [e], ?_, ?_⟩ <;>
      · rw [List.flatMap_cons, List.length_append]; omega

theorem flatMap_get {β γ : Type} (f : β → List γ) (l1 l2 : List β) (x : β) (n : ℕ) (h : n < (f x).length) :
    ((l1 ++ x :: l2).flatMap f)[(l1.flatMap f).length + n]? = (f x)[n]? := by
  rw [List.flatMap_append, List.flatMap_cons, List.getElem?_append_right (by omega), Nat.add_sub_cancel_left,
    List.getElem?_append_left h]

theorem filter_keys {β κ : Type} [DecidableEq κ] (key : β → κ) (l : List β) (K : List κ) (hK : K.Nodup) :
    (K.flatMap fun k => l.filter fun x => decide (key x = k)).Perm (l.filter fun x => decide (key x ∈ K)) := by
  induction K with
  | nil => simp
  | cons k K ih =>
    rw [List.nodup_cons] at hK
    rw [List.flatMap_cons]
    refine ((ih hK.2).append_left _).trans ?_
    have h := List.filter_append_perm (fun x => decide (key x = k)) (l.filter fun x => decide (key x ∈ k :: K))
    rw [List.filter_filter, List.filter_filter] at h
    refine List.Perm.trans (List.Perm.of_eq ?_) h
    congr 1
    · apply List.filter_congr
      intro x _
      by_cases hx : key x = k <;> simp [hx]
    · apply List.filter_congr
      intro x _
      by_cases hx : key x = k
      · simp [hx, hK.1]
      · simp [hx]

/-- the output of a patch is a rearrangement of its selected particles in the sub-box -/
theorem G_perm (c : Cfg α) (hl : ∀ d, 0 ≤ c.ldims d) (p : Patch α) (hp : p.Ok c) :
    (G c p).Perm ((selected p).filter fun x => decide (InBox c p.off (cellOf c x))) := by
  have h := filter_keys (fun x => (cellOf c x, c.kind x)) (selected p) (cells c p.off) (cells_nodup c p.off)
  refine List.Perm.trans (List.Perm.of_eq ?_) (h.trans (List.Perm.of_eq ?_))
  · unfold G group
    simp only [Prod.ext_iff]
  · apply List.filter_congr
    intro x hx
    obtain ⟨h1, h2⟩ := hp x hx
    simp [mem_cells c hl, h1, h2]

end Psc.H5
