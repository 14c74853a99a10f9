import Verif.Model.Ddc
import Verif.Lemmas.Fields
import Verif.Props.Domain

namespace Psc.Ddc

open Domain Fields Props

/-! ## directions -/

theorem mem_dirs {dir : I3} : dir ∈ dirs ↔ IsDir dir := by
  simp only [dirs, List.mem_flatMap, List.mem_map, List.mem_cons, List.not_mem_nil, or_false]
  constructor
  · rintro ⟨z, hz, y, hy, x, hx, rfl⟩ d
    fin_cases d
    · show -1 ≤ x ∧ x ≤ 1; omega
    · show -1 ≤ y ∧ y ≤ 1; omega
    · show -1 ≤ z ∧ z ≤ 1; omega
  · intro h
    have h0 := h 0; have h1 := h 1; have h2 := h 2
    refine ⟨dir 2, by omega, dir 1, by omega, dir 0, by omega, ?_⟩
    funext d; fin_cases d <;> rfl

theorem nodup_dirs : dirs.Nodup := by decide

theorem isDir_neg {dir : I3} (h : IsDir dir) : IsDir fun d => -dir d := fun d => by
  have := h d
  show -1 ≤ -dir d ∧ -dir d ≤ 1
  omega

theorem neg_neg_dir (dir : I3) : (fun d => -(fun d => -dir d) d) = dir := by funext d; simp

theorem dir2idx_inj {a b : I3} (ha : IsDir a) (hb : IsDir b) (h : dir2idx a = dir2idx b) : a = b := by
  unfold dir2idx at h
  have := ha 0; have := ha 1; have := ha 2; have := hb 0; have := hb 1; have := hb 2
  funext d
  fin_cases d
  · show a 0 = b 0; omega
  · show a 1 = b 1; omega
  · show a 2 = b 2; omega

/-- the centre direction -/
def IsZero (dir : I3) : Prop := dir 0 = 0 ∧ dir 1 = 0 ∧ dir 2 = 0

instance (dir : I3) : Decidable (IsZero dir) := inferInstanceAs (Decidable (_ ∧ _ ∧ _))

theorem IsZero.neg_iff {dir : I3} : IsZero (fun d => -dir d) ↔ IsZero dir := by
  unfold IsZero; simp

/-! ## entries -/

theorem nr_patches_eq (D : Decomp) (r : ℕ) : D.nr_patches r = D.counts.getD r 0 := by
  unfold Decomp.nr_patches; rw [off_succ]; omega

theorem has_iff {D : Decomp} {r p : ℕ} : D.Has r p ↔ p < D.nr_patches r := by
  rw [nr_patches_eq]
  constructor
  · exact fun h => h.2
  · intro h
    refine ⟨?_, h⟩
    by_contra hc
    rw [List.getD_eq_default _ _ (by omega)] at h
    omega

/-- the entry rank `me` makes for patch `p` and direction `dir`, if that goes to rank `r` -/
def ent (reg : I3 → Box) (D : Decomp) (me r p : ℕ) (dir : I3) : Option Entry :=
  match init reg D me p dir with
  | some (r', e) => if r' = r then some e else none
  | none => none

theorem entries_eq (reg : I3 → Box) (D : Decomp) (me r : ℕ) :
    entries reg D me r = (List.range (D.nr_patches me)).flatMap fun p => dirs.filterMap (ent reg D me r p) :=
  rfl

theorem ent_eq_some {reg : I3 → Box} {D : Decomp} {me r p : ℕ} {dir : I3} {e : Entry} :
    ent reg D me r p dir = some e ↔
      ¬ IsZero dir ∧ ∃ q, D.nei me p dir = some (r, q) ∧ e = ⟨p, q, dir2idx dir, reg dir⟩ := by
  unfold ent init
  by_cases hz : IsZero dir
  · have : (dir 0 = 0 ∧ dir 1 = 0 ∧ dir 2 = 0) := hz
    simp [this, hz]
  · have : ¬ (dir 0 = 0 ∧ dir 1 = 0 ∧ dir 2 = 0) := hz
    simp only [this, if_false, hz, not_false_eq_true, true_and]
    cases D.nei me p dir with
    | none => simp
    | some rq =>
      obtain ⟨r', q⟩ := rq
      simp only [Option.map_some]
      split_ifs with h
      · subst h
        simp only [Option.some.injEq, Prod.mk.injEq, true_and]
        constructor
        · intro h; exact ⟨q, rfl, h.symm⟩
        · rintro ⟨q', rfl, h⟩; exact h.symm
      · simp [h]

theorem mem_entries {reg : I3 → Box} {D : Decomp} {me r : ℕ} {e : Entry} :
    e ∈ entries reg D me r ↔ ∃ p dir q, p < D.nr_patches me ∧ IsDir dir ∧ ¬ IsZero dir ∧
      D.nei me p dir = some (r, q) ∧ e = ⟨p, q, dir2idx dir, reg dir⟩ := by
  rw [entries_eq]
  simp only [List.mem_flatMap, List.mem_range, List.mem_filterMap, ent_eq_some, mem_dirs]
  constructor
  · rintro ⟨p, hp, dir, hd, hz, q, hn, he⟩; exact ⟨p, dir, q, hp, hd, hz, hn, he⟩
  · rintro ⟨p, dir, q, hp, hd, hz, hn, he⟩; exact ⟨p, hp, dir, hd, hz, q, hn, he⟩

/-- the receive entry on `me` that belongs to what `(r, p)` sends towards `dir` -/
def rent (reg : I3 → Box) (D : Decomp) (me r p : ℕ) (dir : I3) : Option Entry :=
  if IsZero dir then none else
  match D.nei r p dir with
  | some (me', q) => if me' = me then some ⟨q, p, dir2idx fun d => -dir d, reg fun d => -dir d⟩ else none
  | none => none

theorem rent_eq_some {reg : I3 → Box} {D : Decomp} {me r p : ℕ} {dir : I3} {e : Entry} :
    rent reg D me r p dir = some e ↔
      ¬ IsZero dir ∧ ∃ q, D.nei r p dir = some (me, q) ∧
        e = ⟨q, p, dir2idx fun d => -dir d, reg fun d => -dir d⟩ := by
  unfold rent
  by_cases hz : IsZero dir
  · simp [hz]
  · simp only [hz, if_false, not_false_eq_true, true_and]
    cases D.nei r p dir with
    | none => simp
    | some rq =>
      obtain ⟨r', q⟩ := rq
      simp only
      split_ifs with h
      · subst h
        simp only [Option.some.injEq, Prod.mk.injEq, true_and]
        constructor
        · intro h; exact ⟨q, rfl, h.symm⟩
        · rintro ⟨q', rfl, h⟩; exact h.symm
      · simp [h]

theorem find_eq_rent {reg : I3 → Box} {D : Decomp} (hD : D.Valid) {me r p : ℕ} {dir : I3}
    (hp : p < D.nr_patches r) (hd : IsDir dir) :
    find_recv_entry (entries reg D me r) p (dir2idx fun d => -dir d) = rent reg D me r p dir := by
  unfold find_recv_entry
  have key : ∀ e ∈ entries reg D me r, (e.nei_patch = p ∧ e.dir1 = dir2idx fun d => -dir d) →
      rent reg D me r p dir = some e := by
    intro e he hk
    obtain ⟨p', dir', q', hp', hd', hz', hn', rfl⟩ := mem_entries.1 he
    simp only at hk
    obtain ⟨rfl, h1⟩ := hk
    have hdd := dir2idx_inj hd' (isDir_neg hd) h1
    subst hdd
    obtain ⟨_, hs⟩ := C26_neighbour_symm D hD me p' r q' _ (has_iff.2 hp') hd' hn'
    rw [neg_neg_dir] at hs
    rw [rent_eq_some]
    exact ⟨fun h => hz' (IsZero.neg_iff.2 h), p', hs, rfl⟩
  cases hf : List.find? (fun e => decide (e.nei_patch = p ∧ e.dir1 = dir2idx fun d => -dir d))
      (entries reg D me r) with
  | some e =>
    have h1 := List.find?_some hf
    have h2 := List.mem_of_find?_eq_some hf
    exact (key e h2 (by simpa using h1)).symm
  | none =>
    rw [List.find?_eq_none] at hf
    cases hr : rent reg D me r p dir with
    | none => rfl
    | some e =>
      exfalso
      obtain ⟨hz, q, hn, rfl⟩ := rent_eq_some.1 hr
      obtain ⟨hh, hs⟩ := C26_neighbour_symm D hD r p me q _ (has_iff.2 hp) hd hn
      have := hf ⟨q, p, dir2idx fun d => -dir d, reg fun d => -dir d⟩
        (mem_entries.2 ⟨q, fun d => -dir d, p, has_iff.1 hh, (isDir_neg hd),
          fun h => hz (IsZero.neg_iff.1 h), hs, rfl⟩)
      simp at this

/-- all receive entries on `me` for rank `r` in the order rank `r` sends -/
def rlist (reg : I3 → Box) (D : Decomp) (me r : ℕ) : List Entry :=
  (List.range (D.nr_patches r)).flatMap fun p => dirs.filterMap (rent reg D me r p)

theorem mem_rlist {reg : I3 → Box} {D : Decomp} (hD : D.Valid) {me r : ℕ} {e : Entry} :
    e ∈ rlist reg D me r ↔ e ∈ entries reg D me r := by
  unfold rlist
  simp only [List.mem_flatMap, List.mem_range, List.mem_filterMap, rent_eq_some, mem_dirs, mem_entries]
  constructor
  · rintro ⟨p, hp, dir, hd, hz, q, hn, rfl⟩
    obtain ⟨hh, hs⟩ := C26_neighbour_symm D hD r p me q _ (has_iff.2 hp) hd hn
    exact ⟨q, fun d => -dir d, p, has_iff.1 hh, (isDir_neg hd), fun h => hz (IsZero.neg_iff.1 h), hs, rfl⟩
  · rintro ⟨p, dir, q, hp, hd, hz, hn, rfl⟩
    obtain ⟨hh, hs⟩ := C26_neighbour_symm D hD me p r q _ (has_iff.2 hp) hd hn
    refine ⟨q, has_iff.1 hh, fun d => -dir d, (isDir_neg hd), fun h => hz (IsZero.neg_iff.1 h), p, hs, ?_⟩
    simp only [neg_neg]

theorem nodup_flat (n : ℕ) (f : ℕ → I3 → Option Entry) (key : Entry → ℕ) (dk : Entry → ℤ)
    (hk : ∀ p dir e, f p dir = some e → key e = p)
    (hdk : ∀ p a b e e', IsDir a → IsDir b → f p a = some e → f p b = some e' → dk e = dk e' → a = b) :
    ((List.range n).flatMap fun p => dirs.filterMap (f p)).Nodup := by
  rw [List.nodup_flatMap]
  refine ⟨fun p _ => ?_, ?_⟩
  · have : ∀ l : List I3, l.Nodup → (∀ d ∈ l, IsDir d) → (l.filterMap (f p)).Nodup := by
      intro l hl hd
      induction l with
      | nil => simp
      | cons a l ih =>
        have ih' := ih (List.nodup_cons.1 hl).2 (fun d h => hd d (List.mem_cons_of_mem _ h))
        cases hfa : f p a with
        | none => rwa [List.filterMap_cons_none hfa]
        | some e =>
          rw [List.filterMap_cons_some hfa, List.nodup_cons]
          refine ⟨?_, ih'⟩
          rw [List.mem_filterMap]
          rintro ⟨b, hb, hfb⟩
          have := hdk p a b e e (hd a List.mem_cons_self) (hd b (List.mem_cons_of_mem _ hb)) hfa hfb rfl
          subst this
          exact (List.nodup_cons.1 hl).1 hb
    exact this dirs nodup_dirs fun d h => mem_dirs.1 h
  · refine List.Pairwise.imp ?_ List.nodup_range
    intro a b hab
    simp only [Function.onFun, List.disjoint_left, List.mem_filterMap]
    rintro x ⟨d, _, h⟩ ⟨d', _, h'⟩
    exact hab ((hk a d x h).symm.trans (hk b d' x h'))

theorem rlist_perm {reg : I3 → Box} {D : Decomp} (hD : D.Valid) (me r : ℕ) :
    (rlist reg D me r).Perm (entries reg D me r) := by
  refine (List.perm_ext_iff_of_nodup ?_ ?_).2 fun e => mem_rlist hD
  · refine nodup_flat _ _ (fun e => e.nei_patch) (fun e => e.dir1) ?_ ?_
    · intro p dir e h
      obtain ⟨_, q, _, rfl⟩ := rent_eq_some.1 h; rfl
    · intro p a b e e' ha hb h h' hd
      obtain ⟨_, q, _, rfl⟩ := rent_eq_some.1 h
      obtain ⟨_, q', _, rfl⟩ := rent_eq_some.1 h'
      have := dir2idx_inj (isDir_neg ha) (isDir_neg hb) hd
      rw [← neg_neg_dir a, this, neg_neg_dir]
  · rw [entries_eq]
    refine nodup_flat _ _ (fun e => e.patch) (fun e => e.dir1) ?_ ?_
    · intro p dir e h
      obtain ⟨_, q, _, rfl⟩ := ent_eq_some.1 h; rfl
    · intro p a b e e' ha hb h h' hd
      obtain ⟨_, q, _, rfl⟩ := ent_eq_some.1 h
      obtain ⟨_, q', _, rfl⟩ := ent_eq_some.1 h'
      exact dir2idx_inj ha hb hd

theorem reorder_eq (l : List Entry) (f : ℕ → List Entry) (N : ℕ)
    (hf : ∀ p < N, (dirs.filterMap fun dir => find_recv_entry l p (dir2idx fun d => -dir d)) = f p)
    (hlen : ((List.range N).flatMap f).length = l.length) :
    reorder l N 0 [] = some ((List.range N).flatMap f) := by
  have : ∀ fuel p, p + fuel = N →
      reorder l fuel p ((List.range p).flatMap f) = some ((List.range N).flatMap f) := by
    intro fuel
    induction fuel with
    | zero =>
      intro p hp
      have : p = N := by omega
      subst this
      unfold reorder
      rw [if_neg (by rw [hlen]; omega)]
    | succ fuel ih =>
      intro p hp
      unfold reorder
      split_ifs with h
      · have e : (List.range p).flatMap f ++
            (dirs.filterMap fun dir => find_recv_entry l p (dir2idx fun d => -dir d)) =
            (List.range (p + 1)).flatMap f := by
          rw [hf p (by omega), List.range_succ, List.flatMap_append]; simp
        simp only
        rw [e]
        exact ih (p + 1) (by omega)
      · congr 1
        have hsplit : List.range N = List.range p ++ (List.range (fuel + 1)).map (p + ·) := by
          rw [← hp, List.range_add]
        rw [hsplit, List.flatMap_append] at hlen ⊢
        rw [List.length_append] at hlen
        have : (((List.range (fuel + 1)).map (p + ·)).flatMap f) = [] := by
          rw [← List.length_eq_zero_iff]; omega
        rw [this, List.append_nil]
  exact this N 0 (by omega)

/-- the receive pattern is set up, in the order of the sender -/
theorem recv_entries_eq {reg : I3 → Box} {D : Decomp} (hD : D.Valid) (me r : ℕ) :
    recv_entries reg D me r = some (rlist reg D me r) := by
  refine reorder_eq _ _ _ ?_ ?_
  · intro p hp
    refine List.filterMap_congr fun dir hdir => ?_
    exact find_eq_rent hD hp (mem_dirs.1 hdir)
  · exact (rlist_perm hD me r).length_eq

/-- simultaneous traversal of send and receive lists -/
theorem forall₂_filterMap {α β γ : Type} (R : β → γ → Prop) (f : α → Option β) (g : α → Option γ) (l : List α)
    (h : ∀ a ∈ l, (f a = none ∧ g a = none) ∨ ∃ b c, f a = some b ∧ g a = some c ∧ R b c) :
    List.Forall₂ R (l.filterMap f) (l.filterMap g) := by
  induction l with
  | nil => simp
  | cons a l ih =>
    have ih' := ih fun x hx => h x (List.mem_cons_of_mem _ hx)
    rcases h a List.mem_cons_self with ⟨h1, h2⟩ | ⟨b, c, h1, h2, h3⟩
    · rwa [List.filterMap_cons_none h1, List.filterMap_cons_none h2]
    · rw [List.filterMap_cons_some h1, List.filterMap_cons_some h2]
      exact List.Forall₂.cons h3 ih'

theorem forall₂_flatMap {α β γ : Type} (R : β → γ → Prop) (f : α → List β) (g : α → List γ) (l : List α)
    (h : ∀ a ∈ l, List.Forall₂ R (f a) (g a)) : List.Forall₂ R (l.flatMap f) (l.flatMap g) := by
  induction l with
  | nil => simp
  | cons a l ih =>
    rw [List.flatMap_cons, List.flatMap_cons]
    exact List.rel_append (h a List.mem_cons_self) (ih fun x hx => h x (List.mem_cons_of_mem _ hx))

/-- matching send and receive entries -/
def Match (sreg rreg : I3 → Box) (D : Decomp) (r me : ℕ) (se re : Entry) : Prop :=
  ∃ p q dir, p < D.nr_patches r ∧ IsDir dir ∧ ¬ IsZero dir ∧ D.nei r p dir = some (me, q) ∧
    se = ⟨p, q, dir2idx dir, sreg dir⟩ ∧ re = ⟨q, p, dir2idx fun d => -dir d, rreg fun d => -dir d⟩

theorem matched (sreg rreg : I3 → Box) (D : Decomp) (r me : ℕ) :
    List.Forall₂ (Match sreg rreg D r me) (entries sreg D r me) (rlist rreg D me r) := by
  rw [entries_eq, rlist]
  refine forall₂_flatMap _ _ _ _ fun p hp => forall₂_filterMap _ _ _ _ fun dir hdir => ?_
  by_cases hz : IsZero dir
  · left
    constructor
    · cases h : ent sreg D r me p dir with
      | none => rfl
      | some e => exact absurd hz (ent_eq_some.1 h).1
    · simp [rent, hz]
  · cases hn : D.nei r p dir with
    | none =>
      left
      constructor
      · cases h : ent sreg D r me p dir with
        | none => rfl
        | some e => obtain ⟨_, q, h, _⟩ := ent_eq_some.1 h; rw [hn] at h; exact absurd h (by simp)
      · simp [rent, hn]
    | some rq =>
      obtain ⟨r', q⟩ := rq
      by_cases hr : r' = me
      · subst hr
        right
        refine ⟨_, _, ent_eq_some.2 ⟨hz, q, hn, rfl⟩, rent_eq_some.2 ⟨hz, q, hn, rfl⟩, ?_⟩
        exact ⟨p, q, dir, List.mem_range.1 hp, mem_dirs.1 hdir, hz, hn, rfl, rfl⟩
      · left
        constructor
        · cases h : ent sreg D r me p dir with
          | none => rfl
          | some e =>
            obtain ⟨_, q, h, _⟩ := ent_eq_some.1 h
            rw [hn] at h
            simp only [Option.some.injEq, Prod.mk.injEq] at h
            exact absurd h.1 hr
        · simp [rent, hn, hr]

end Psc.Ddc
