import Verif.Lemmas.Ghost
import Mathlib.Algebra.BigOperators.Ring.Finset
import Mathlib.Tactic.Linarith

namespace Psc.Ddc

open Domain Fields Props

variable {K : Type}

theorem mem_patches {D : Decomp} {r p : ℕ} : (r, p) ∈ patches D ↔ D.Has r p := by
  simp [patches, Decomp.Has]

theorem mem_owned {c : Cfg} {n : I3} : n ∈ ownedCells c ↔ Interior c n := by
  simp [ownedCells, Interior, Fintype.mem_piFinset]

theorem mem_stored {c : Cfg} {n : I3} : n ∈ storedCells c ↔ Stored c n := by
  simp [storedCells, Stored, Fintype.mem_piFinset]

theorem nei_eq_some {D : Decomp} (hD : D.Valid) {r p r' p' : ℕ} {dir : I3} (h : D.Has r p)
    (h' : D.Has r' p') (hd : IsDir dir) :
    D.nei r p dir = some (r', p') ↔
      ∀ d, nei1 (D.np d) (D.bc d) (D.idx3 r p d) (dir d) = some (D.idx3 r' p' d) := by
  rw [← neiIdx_eq_some]
  unfold Decomp.nei
  obtain ⟨hin', how'⟩ := C25_idx3_owner D hD r' p' h'
  constructor
  · intro hn
    cases hq : D.neiIdx (D.idx3 r p) dir with
    | none => rw [hq] at hn; simp at hn
    | some q =>
      rw [hq] at hn
      simp only [Option.bind_some] at hn
      have hg := ((C26_neighbour_position D _ dir (C25_idx3_owner D hD r p h).1 hd).1 q hq).1
      obtain ⟨r2, p2, ho, _, hi⟩ := C25_owner_idx3 D hD q hg
      rw [ho] at hn
      simp only [Option.some.injEq, Prod.mk.injEq] at hn
      obtain ⟨rfl, rfl⟩ := hn
      rw [hi]
  · intro hq
    rw [hq]
    exact how'

theorem wrap1 {np : ℕ} {L i j n' n s : ℤ} (hi : 0 ≤ i ∧ i < np) (hj : 0 ≤ j ∧ j < np)
    (hn' : 0 ≤ n' ∧ n' < L) (hn0 : 0 ≤ n - s * L ∧ n - s * L < L) (hs : -1 ≤ s ∧ s ≤ 1) :
    (i * L + n') % (np * L) = (j * L + n) % (np * L) ↔
      n' = n - s * L ∧ (i = j + s ∨ i = j + s + np ∨ i = j + s - np) := by
  rw [Int.emod_eq_emod_iff_emod_sub_eq_zero, ← Int.dvd_iff_emod_eq_zero]
  have hL : 0 < L := by omega
  constructor
  · rintro ⟨k, hk⟩
    have e : n' - (n - s * L) = L * (np * k - (i - j - s)) := by linear_combination hk
    have hz : np * k - (i - j - s) = 0 := by
      by_contra hne
      rcases lt_or_gt_of_ne hne with h | h
      · have : L * (np * k - (i - j - s)) ≤ L * (-1) := mul_le_mul_of_nonneg_left (by omega) hL.le
        omega
      · have : L * 1 ≤ L * (np * k - (i - j - s)) := mul_le_mul_of_nonneg_left (by omega) hL.le
        omega
    rw [hz, mul_zero] at e
    refine ⟨by omega, ?_⟩
    have hk1 : -1 ≤ k := by
      by_contra hc
      have : (np : ℤ) * k ≤ np * (-2) := mul_le_mul_of_nonneg_left (by omega) (by omega)
      omega
    have hk2 : k ≤ 1 := by
      by_contra hc
      have : (np : ℤ) * 2 ≤ np * k := mul_le_mul_of_nonneg_left (by omega) (by omega)
      omega
    rcases (show k = -1 ∨ k = 0 ∨ k = 1 by omega) with rfl | rfl | rfl <;> omega
  · rintro ⟨rfl, h | h | h⟩
    · exact ⟨0, by rw [h]; ring⟩
    · exact ⟨1, by rw [h]; ring⟩
    · exact ⟨-1, by rw [h]; ring⟩

theorem nowrap1 {L i j n' n s : ℤ} (hn' : 0 ≤ n' ∧ n' < L) (hn0 : 0 ≤ n - s * L ∧ n - s * L < L) :
    i * L + n' = j * L + n ↔ n' = n - s * L ∧ i = j + s := by
  have hL : 0 < L := by omega
  constructor
  · intro hk
    have e : n' - (n - s * L) = L * (j + s - i) := by linear_combination hk
    have hz : j + s - i = 0 := by
      by_contra hne
      rcases lt_or_gt_of_ne hne with h | h
      · have : L * (j + s - i) ≤ L * (-1) := mul_le_mul_of_nonneg_left (by omega) hL.le
        omega
      · have : L * 1 ≤ L * (j + s - i) := mul_le_mul_of_nonneg_left (by omega) hL.le
        omega
    rw [hz, mul_zero] at e
    omega
  · rintro ⟨rfl, rfl⟩; ring

theorem interior_seen {c : Cfg} (hc : c.Ok) {n : I3} (hs : Stored c n) (hL : ∀ d, 0 < c.ldims d) :
    Interior c (seenFrom c (side c n) n) := by
  intro d
  have := hs d; have := hc.ibn d; have := hL d
  unfold seenFrom side
  by_cases h1 : n d < 0
  · simp only [h1, if_true]; constructor <;> linarith
  · by_cases h2 : n d < c.ldims d
    · simp only [h1, h2, if_true, if_false]; constructor <;> linarith
    · simp only [h1, h2, if_false]; constructor <;> linarith

/-- a stored cell and an owned cell are the same physical cell iff the owner is the neighbour towards which
the stored cell lies -/
theorem phys_iff {c : Cfg} (hc : c.Ok) {r p rank q : ℕ} {n' n : I3} (hrp : c.D.Has r p)
    (hq : c.D.Has rank q) (hn : Stored c n) (hn' : Interior c n') :
    phys c r p n' = phys c rank q n ↔
      c.D.nei rank q (side c n) = some (r, p) ∧ n' = seenFrom c (side c n) n := by
  have hL : ∀ d, 0 < c.ldims d := fun d => by have := hn' d; omega
  have hint := interior_seen hc hn hL
  have hs := side_isDir c n
  have h1 := (C25_idx3_owner c.D hc.valid r p hrp).1
  have h2 := (C25_idx3_owner c.D hc.valid rank q hq).1
  rw [nei_eq_some hc.valid hq hrp hs]
  have key : ∀ d, phys c r p n' d = phys c rank q n d ↔
      nei1 (c.D.np d) (c.D.bc d) (c.D.idx3 rank q d) (side c n d) = some (c.D.idx3 r p d) ∧
        n' d = seenFrom c (side c n) n d := by
    intro d
    rw [nei1_eq_some (h2 d) (hs d)]
    have hi := hint d
    have a1 := h1 d; have a2 := h2 d
    unfold phys Cfg.off Cfg.gdims
    simp only [seenFrom] at hi ⊢
    cases hb : c.D.bc d
    · simp only [Bool.false_eq_true, if_false, false_and, or_false]
      rw [nowrap1 (hn' d) hi]
      omega
    · simp only [if_true, true_and]
      rw [wrap1 ⟨by omega, by omega⟩ ⟨by omega, by omega⟩ (hn' d) hi (hs d)]
      omega
  constructor
  · intro h
    exact ⟨fun d => ((key d).1 (congrFun h d)).1, funext fun d => ((key d).1 (congrFun h d)).2⟩
  · rintro ⟨ha, hb⟩
    exact funext fun d => (key d).2 ⟨ha d, congrFun hb d⟩

theorem nei_self {D : Decomp} (hD : D.Valid) {r p : ℕ} (h : D.Has r p) {dir : I3} (hz : IsZero dir) :
    D.nei r p dir = some (r, p) := by
  have hd0 : ∀ d, dir d = 0 := by
    obtain ⟨a, b, c⟩ := hz
    intro d
    fin_cases d
    · exact a
    · exact b
    · exact c
  rw [nei_eq_some hD h h (fun d => by rw [hd0 d]; omega)]
  intro d
  have hin := (C25_idx3_owner D hD r p h).1 d
  rw [hd0 d, nei1_eq_some hin (by omega)]
  exact ⟨hin, Or.inl (by omega)⟩

theorem seenFrom_zero {c : Cfg} {dir n : I3} (hz : IsZero dir) : seenFrom c dir n = n := by
  obtain ⟨a, b, e⟩ := hz
  funext d
  unfold seenFrom
  fin_cases d
  · show n 0 - dir 0 * _ = n 0; rw [a]; ring
  · show n 1 - dir 1 * _ = n 1; rw [b]; ring
  · show n 2 - dir 2 * _ = n 2; rw [e]; ring

/-- a stored cell has an owner iff it is in the domain -/
theorem inDomain_iff {c : Cfg} (hc : c.Ok) {rank q : ℕ} {n : I3} (hq : c.D.Has rank q) (hn : Stored c n)
    (hL : ∀ d, 0 < c.ldims d) :
    InDomain c rank q n ↔ ∃ r p, c.D.Has r p ∧ c.D.nei rank q (side c n) = some (r, p) := by
  have e : (∃ r p, c.D.Has r p ∧ c.D.nei rank q (side c n) = some (r, p)) ↔
      ∃ r p, c.D.nei rank q (side c n) = some (r, p) := by
    constructor
    · rintro ⟨r, p, _, h⟩; exact ⟨r, p, h⟩
    · rintro ⟨r, p, h⟩
      exact ⟨r, p, (C26_neighbour_symm c.D hc.valid rank q r p _ hq (side_isDir c n) h).1, h⟩
  rw [e, C26_neighbour_exists c.D hc.valid rank q _ hq (side_isDir c n)]
  refine forall_congr' fun d => or_congr Iff.rfl ?_
  have hint := interior_seen hc hn hL d
  have hl := hL d
  unfold Cfg.off Cfg.gdims
  simp only [seenFrom] at hint
  generalize c.D.idx3 rank q d = i at *
  generalize side c n d = s at *
  generalize c.D.np d = np at *
  generalize c.ldims d = L at *
  constructor
  · rintro ⟨h1, h2⟩
    constructor
    · by_contra hneg
      have : ((i : ℤ) + s) * L ≤ (-1) * L := mul_le_mul_of_nonneg_right (by omega) hl.le
      have e1 : ((i : ℤ) + s) * L = i * L + s * L := by ring
      omega
    · by_contra hneg
      have : (np : ℤ) * L ≤ ((i : ℤ) + s) * L := mul_le_mul_of_nonneg_right (by omega) hl.le
      have e1 : ((i : ℤ) + s) * L = i * L + s * L := by ring
      omega
  · rintro ⟨h1, h2⟩
    have e1 : ((i : ℤ) + s) * L = i * L + s * L := by ring
    have h3 : 0 ≤ ((i : ℤ) + s) * L := mul_nonneg h1 hl.le
    have h4 : ((i : ℤ) + s) * L + L ≤ np * L := by
      have : ((i : ℤ) + s + 1) * L ≤ np * L := mul_le_mul_of_nonneg_right (by omega) hl.le
      linarith
    omega

theorem side_seen {c : Cfg} {n dir : I3} (hn : Interior c n) (hd : IsDir dir) :
    side c (seenFrom c dir n) = fun d => -dir d := by
  funext d
  have h1 := hn d; have h2 := hd d
  unfold side seenFrom
  rcases (show dir d = -1 ∨ dir d = 0 ∨ dir d = 1 by omega) with e | e | e <;> simp only [e]
  · rw [if_neg (by linarith), if_neg (by linarith)]; rfl
  · rw [if_neg (by linarith), if_pos (by linarith)]; rfl
  · rw [if_pos (by linarith)]

theorem seen_seen {c : Cfg} {n dir : I3} : seenFrom c (fun d => -dir d) (seenFrom c dir n) = n := by
  funext d; simp only [seenFrom]; ring

/-- the contributions per direction are the contributions for the physical cell -/
theorem contrib_sum [AddCommMonoid K] {c : Cfg} (hc : c.Ok) {mb me : ℕ} {σ : ℕ → RankState K} {rank q m : ℕ}
    {n : I3} (hq : c.D.Has rank q) (hm : mb ≤ m ∧ m < me) (hn : Interior c n) :
    σ rank q (m, n) + (dirs.map (contrib c mb me σ rank q m n)).sum =
      ∑ rp ∈ patches c.D, ∑ n' ∈ storedCells c,
        if phys c rp.1 rp.2 n' = phys c rank q n then σ rp.1 rp.2 (m, n') else 0 := by
  have hL : ∀ d, 0 < c.ldims d := fun d => by have := hn d; omega
  have hst : Stored c n := fun d => by have := hn d; have := hc.ibn d; omega
  -- left: a sum over all directions including the centre
  let g : I3 → K := fun dir => match c.D.nei rank q dir with
    | some (r, p) => if Stored c (seenFrom c dir n) then σ r p (m, seenFrom c dir n) else 0
    | none => 0
  have hz0 : IsZero (fun _ => 0) := ⟨rfl, rfl, rfl⟩
  have e1 : ∀ dir, ¬ IsZero dir → contrib c mb me σ rank q m n dir = g dir := by
    intro dir hz
    unfold contrib
    rw [if_neg hz]
    simp only [g]
    cases c.D.nei rank q dir with
    | none => rfl
    | some rp => simp only [hm, hn, true_and, and_self]
  have e2 : ∀ dir, IsZero dir → g dir = σ rank q (m, n) := by
    intro dir hz
    simp only [g]
    rw [nei_self hc.valid hq hz, seenFrom_zero hz]
    simp only [hst, if_true]
  have hl : σ rank q (m, n) + (dirs.map (contrib c mb me σ rank q m n)).sum = ∑ dir ∈ dirs.toFinset, g dir := by
    rw [List.sum_toFinset _ nodup_dirs]
    have : ∀ dir ∈ dirs, g dir = (if dir = (fun _ => 0) then σ rank q (m, n) else 0) + contrib c mb me σ rank q m n dir := by
      intro dir _
      by_cases h : dir = fun _ => 0
      · subst h
        rw [if_pos rfl, e2 _ hz0]
        simp [contrib, hz0]
      · rw [if_neg h, zero_add, e1]
        rintro ⟨a, b, e⟩
        apply h
        funext d
        fin_cases d
        · exact a
        · exact b
        · exact e
    rw [List.map_congr_left this, List.sum_map_add,
      sum_single' dirs nodup_dirs (fun _ => 0) (fun _ => σ rank q (m, n)), if_pos (mem_dirs.2 (by intro d; simp))]
  rw [hl, ← Finset.sum_product', ← Finset.sum_filter]
  classical
  have hsub : ∑ dir ∈ dirs.toFinset, g dir = ∑ dir ∈ dirs.toFinset with
      (∃ r p, c.D.nei rank q dir = some (r, p)) ∧ Stored c (seenFrom c dir n), g dir := by
    rw [Finset.sum_filter]
    refine Finset.sum_congr rfl fun dir _ => ?_
    split_ifs with h
    · rfl
    · simp only [g]
      cases hn : c.D.nei rank q dir with
      | none => rfl
      | some rp =>
        simp only
        rw [if_neg]
        intro hs
        exact h ⟨⟨rp.1, rp.2, hn⟩, hs⟩
  rw [hsub]
  symm
  refine Finset.sum_bij (fun x _ => fun d => -side c x.2 d) ?_ ?_ ?_ ?_
  · rintro ⟨⟨r, p⟩, n'⟩ hx
    simp only [Finset.mem_filter, Finset.mem_product, mem_patches, mem_stored] at hx
    obtain ⟨⟨hh, hs⟩, he⟩ := hx
    obtain ⟨h1, h2⟩ := (phys_iff hc hq hh hs hn).1 he.symm
    have hd := side_isDir c n'
    simp only [Finset.mem_filter, List.mem_toFinset, mem_dirs]
    refine ⟨isDir_neg hd, ⟨r, p, (nei_unique_symm hc.valid hh hq hd).1 h1⟩, ?_⟩
    rw [h2, seen_seen]; exact hs
  · rintro ⟨⟨r, p⟩, n'⟩ hx ⟨⟨r2, p2⟩, n2⟩ hx2 he
    simp only [Finset.mem_filter, Finset.mem_product, mem_patches, mem_stored] at hx hx2
    obtain ⟨⟨hh, hs⟩, hp⟩ := hx
    obtain ⟨⟨hh2, hs2⟩, hp2⟩ := hx2
    obtain ⟨h1, h2⟩ := (phys_iff hc hq hh hs hn).1 hp.symm
    obtain ⟨h3, h4⟩ := (phys_iff hc hq hh2 hs2 hn).1 hp2.symm
    have hd := side_isDir c n'
    have hd2 := side_isDir c n2
    have es : side c n' = side c n2 := by
      funext d; have := congrFun he d; simp only at this; omega
    have k1 := (nei_unique_symm hc.valid hh hq hd).1 h1
    have k2 := (nei_unique_symm hc.valid hh2 hq hd2).1 h3
    rw [es, k2] at k1
    simp only [Option.some.injEq, Prod.mk.injEq] at k1
    obtain ⟨rfl, rfl⟩ := k1
    have : n' = n2 := by
      have a := congrArg (seenFrom c fun d => -side c n' d) h2
      rw [seen_seen] at a
      have b := congrArg (seenFrom c fun d => -side c n2 d) h4
      rw [seen_seen] at b
      rw [← a, ← b, es]
    rw [this]
  · intro dir hdir
    simp only [Finset.mem_filter, List.mem_toFinset, mem_dirs] at hdir
    obtain ⟨hd, ⟨r, p, hnei⟩, hs⟩ := hdir
    have hh := (C26_neighbour_symm c.D hc.valid rank q r p _ hq hd hnei)
    refine ⟨((r, p), seenFrom c dir n), ?_, ?_⟩
    · simp only [Finset.mem_filter, Finset.mem_product, mem_patches, mem_stored]
      refine ⟨⟨hh.1, hs⟩, ?_⟩
      refine ((phys_iff hc hq hh.1 hs hn).2 ?_).symm
      rw [side_seen hn hd]
      exact ⟨hh.2, seen_seen.symm⟩
    · funext d
      rw [side_seen hn hd]
      simp
  · rintro ⟨⟨r, p⟩, n'⟩ hx
    simp only [Finset.mem_filter, Finset.mem_product, mem_patches, mem_stored] at hx
    obtain ⟨⟨hh, hs⟩, he⟩ := hx
    obtain ⟨h1, h2⟩ := (phys_iff hc hq hh hs hn).1 he.symm
    have hd := side_isDir c n'
    have k := (nei_unique_symm hc.valid hh hq hd).1 h1
    simp only [g]
    rw [k]
    have e : seenFrom c (fun d => -side c n' d) n = n' := by rw [h2, seen_seen]
    simp only [e, hs, if_true]

theorem contrib_zero [AddCommMonoid K] {c : Cfg} {mb me : ℕ} {σ : ℕ → RankState K} {rank q m : ℕ}
    {n : I3} (h : ¬ (mb ≤ m ∧ m < me) ∨ ¬ Interior c n) : (dirs.map (contrib c mb me σ rank q m n)).sum = 0 := by
  apply List.sum_eq_zero
  intro x hx
  obtain ⟨dir, _, rfl⟩ := List.mem_map.1 hx
  have hne : ¬ ((mb ≤ m ∧ m < me) ∧ Interior c n ∧ Stored c (seenFrom c dir n)) := by
    rintro ⟨a, b, _⟩
    exact h.elim (fun h => h a) (fun h => h b)
  unfold contrib
  simp only [hne, if_false]
  cases c.D.nei rank q dir <;> simp

/-- every stored in-domain cell has exactly one owner cell -/
theorem owner_count {c : Cfg} (hc : c.Ok) (hL : ∀ d, 0 < c.ldims d) {rank q : ℕ} {n : I3}
    (hq : c.D.Has rank q) (hn : Stored c n) [AddCommMonoid K] (v : K) :
    (∑ rp ∈ patches c.D, ∑ n' ∈ ownedCells c, if phys c rank q n = phys c rp.1 rp.2 n' then v else 0) =
      if InDomain c rank q n then v else 0 := by
  rw [← Finset.sum_product']
  split_ifs with hd
  · obtain ⟨r, p, hh, hnei⟩ := (inDomain_iff hc hq hn hL).1 hd
    rw [Finset.sum_eq_single ((r, p), seenFrom c (side c n) n)]
    · rw [if_pos]
      exact ((phys_iff hc hh hq hn (interior_seen hc hn hL)).2 ⟨hnei, rfl⟩).symm
    · rintro ⟨⟨r', p'⟩, n'⟩ hx hne
      rw [if_neg]
      intro he
      simp only [Finset.mem_product, mem_patches, mem_owned] at hx
      obtain ⟨h1, h2⟩ := (phys_iff hc hx.1 hq hn hx.2).1 he.symm
      rw [hnei] at h1
      simp only [Option.some.injEq, Prod.mk.injEq] at h1
      obtain ⟨rfl, rfl⟩ := h1
      exact hne (by rw [h2])
    · intro hx
      exact absurd (by simp only [Finset.mem_product, mem_patches, mem_owned]; exact ⟨hh, interior_seen hc hn hL⟩) hx
  · refine Finset.sum_eq_zero ?_
    rintro ⟨⟨r', p'⟩, n'⟩ hx
    rw [if_neg]
    intro he
    simp only [Finset.mem_product, mem_patches, mem_owned] at hx
    obtain ⟨h1, h2⟩ := (phys_iff hc hx.1 hq hn hx.2).1 he.symm
    exact hd ((inDomain_iff hc hq hn hL).2 ⟨r', p', hx.1, h1⟩)

/-! ## buffer offsets -/

theorem getElem_flatMap_const {α β : Type} (l : List α) (f : α → List β) (k : ℕ) (hk : ∀ a ∈ l, (f a).length = k)
    (i : ℕ) (h : i < (l.flatMap f).length) :
    ∃ (h1 : i / k < l.length) (h2 : i % k < (f (l[i / k])).length),
      (l.flatMap f)[i] = (f (l[i / k]))[i % k] := by
  induction l generalizing i with
  | nil => simp at h
  | cons a l ih =>
    have hka := hk a List.mem_cons_self
    by_cases hi : i < k
    · have h0 : i / k = 0 := Nat.div_eq_of_lt hi
      have hm : i % k = i := Nat.mod_eq_of_lt hi
      refine ⟨by simp [h0], by simp [h0, hm, hka, hi], ?_⟩
      simp only [List.flatMap_cons, h0, hm, List.getElem_cons_zero]
      rw [List.getElem_append_left]
    · have hk0 : 0 < k := by
        by_contra hc
        have hk' : k = 0 := by omega
        have : ((a :: l).flatMap f).length = 0 := by
          rw [List.length_flatMap]
          apply List.sum_eq_zero
          intro x hx
          obtain ⟨b, hb, rfl⟩ := List.mem_map.1 hx
          rw [hk b hb, hk']
        omega
      have hlen : i - k < (l.flatMap f).length := by
        rw [List.flatMap_cons, List.length_append, hka] at h; omega
      obtain ⟨h1, h2, h3⟩ := ih (fun b hb => hk b (List.mem_cons_of_mem _ hb)) (i - k) hlen
      have hd : i / k = (i - k) / k + 1 := by
        rw [Nat.div_eq_sub_div hk0 (by omega)]
      have hm : i % k = (i - k) % k := Nat.mod_eq_sub_mod (by omega)
      refine ⟨by simp only [hd, List.length_cons]; omega, ?_, ?_⟩
      · simp only [hd, hm, List.getElem_cons_succ]; exact h2
      · simp only [hd, hm, List.getElem_cons_succ, List.flatMap_cons]
        rw [List.getElem_append_right (by omega)]
        simp only [hka]
        exact h3

end Psc.Ddc
