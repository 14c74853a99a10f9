import Verif.Lemmas.Bndp
import Verif.Lemmas.Phys
import Mathlib.Algebra.BigOperators.Group.Multiset.Basic
import Mathlib.Algebra.Order.BigOperators.Group.List

namespace Psc.Bndp

open Domain Ddc Props

/-! ## lists as multisets -/

theorem coe_flatMap {α β : Type} (l : List α) (f : α → List β) :
    ((l.flatMap f : List β) : Multiset β) = (l.map fun a => (f a : Multiset β)).sum := by
  induction l with
  | nil => rfl
  | cons a l ih =>
    rw [List.flatMap_cons, List.map_cons, List.sum_cons, ← ih, Multiset.coe_add]

theorem coe_filterMap {α β : Type} (l : List α) (f : α → Option β) :
    ((l.filterMap f : List β) : Multiset β) = (l.map fun a => ((f a).toList : Multiset β)).sum := by
  induction l with
  | nil => rfl
  | cons a l ih =>
    rw [List.map_cons, List.sum_cons, ← ih]
    cases h : f a with
    | none => rw [List.filterMap_cons_none h]; simp
    | some b => rw [List.filterMap_cons_some h]; simp

variable {K A : Type} [Field K] [LinearOrder K] [IsStrictOrderedRing K] [FloorRing K]

/-! ## process_patch -/

/-- kept version of a particle -/
def keepOf (g : PatchP K) (prt : Prt K A) : Option (Prt K A) :=
  match fate g prt with
  | .keep p => some p
  | _ => none

/-- sent version of a particle -/
def sendOf (g : PatchP K) (k : ℤ) (prt : Prt K A) : Option (Prt K A) :=
  match fate g prt with
  | .send dir p => if dir2idx dir = k then some p else none
  | _ => none

theorem process_patch_eq {g : PatchP K} (hg : g.Ok) (prts : List (Prt K A)) (hn : ∀ p ∈ prts, Near g p.x) :
    process_patch g prts = some ⟨prts.filterMap (keepOf g), fun k => prts.filterMap (sendOf g k)⟩ := by
  unfold process_patch
  have gen : ∀ (l : List (Prt K A)) (b : PatchBuf K A), (∀ p ∈ l, Near g p.x) →
      l.foldlM (fun (b : PatchBuf K A) prt => do
        match ← process1 g prt with
        | .keep p => pure { b with kept := b.kept ++ [p] }
        | .send dir p => pure { b with send := Function.update b.send (dir2idx dir) (b.send (dir2idx dir) ++ [p]) }
        | .drop => pure b) b =
      some ⟨b.kept ++ l.filterMap (keepOf g), fun k => b.send k ++ l.filterMap (sendOf g k)⟩ := by
    intro l
    induction l with
    | nil => intro b _; simp
    | cons a l ih =>
      intro b h
      rw [List.foldlM_cons, process1_eq hg (h a List.mem_cons_self)]
      have ih' := fun b => ih b fun p hp => h p (List.mem_cons_of_mem _ hp)
      cases hf : fate g a with
      | keep p =>
        have h1 : keepOf g a = some p := by unfold keepOf; rw [hf]
        have h2 : ∀ k, sendOf g k a = none := by intro k; unfold sendOf; rw [hf]
        refine (ih' _).trans ?_
        rw [List.filterMap_cons_some h1]
        congr 2
        · simp
        · funext k; rw [List.filterMap_cons_none (h2 k)]
      | send dir p =>
        have h1 : keepOf g a = none := by unfold keepOf; rw [hf]
        refine (ih' _).trans ?_
        rw [List.filterMap_cons_none h1]
        congr 2
        funext k
        by_cases hk : dir2idx dir = k
        · have h2 : sendOf g k a = some p := by unfold sendOf; rw [hf]; simp [hk]
          rw [List.filterMap_cons_some h2]
          subst hk
          simp
        · have h2 : sendOf g k a = none := by unfold sendOf; rw [hf]; simp [hk]
          rw [List.filterMap_cons_none h2]
          simp only
          rw [Function.update_of_ne (Ne.symm hk)]
      | drop =>
        have h1 : keepOf g a = none := by unfold keepOf; rw [hf]
        have h2 : ∀ k, sendOf g k a = none := by intro k; unfold sendOf; rw [hf]
        refine (ih' _).trans ?_
        rw [List.filterMap_cons_none h1]
        congr 2
        funext k; rw [List.filterMap_cons_none (h2 k)]
  exact (gen prts ⟨[], fun _ => []⟩ hn).trans (by simp)

theorem newDir_isDir (g : PatchP K) (x : R3 K) : IsDir (newDir g x) := by
  intro d
  unfold newDir
  split_ifs <;> omega

/-- every particle that does not leave ends up in exactly one buffer -/
theorem fate_count (g : PatchP K) (prt : Prt K A) :
    (((keepOf g prt).toList.map Prt.rest : List A) : Multiset A) +
      (dirs.map fun dir => (((sendOf g (dir2idx dir) prt).toList.map Prt.rest : List A) : Multiset A)).sum =
      if Leaves g prt.x then 0 else {prt.rest} := by
  by_cases hl : Leaves g prt.x
  · have hf : fate g prt = .drop := by unfold fate; rw [if_pos hl]
    simp [keepOf, sendOf, hf, hl]
  · rw [if_neg hl]
    by_cases hz : IsZero (newDir g prt.x)
    · have hf : fate g prt = .keep ⟨newX g prt.x, newU g prt.x prt.u, prt.rest⟩ := by
        unfold fate; rw [if_neg hl, if_pos hz]
      simp [keepOf, sendOf, hf]
    · have hf : fate g prt = .send (newDir g prt.x) ⟨newX g prt.x, newU g prt.x prt.u, prt.rest⟩ := by
        unfold fate; rw [if_neg hl, if_neg hz]
      have hd := newDir_isDir g prt.x
      have e : ∀ dir ∈ dirs, (((sendOf g (dir2idx dir) prt).toList.map Prt.rest : List A) : Multiset A) =
          if dir = newDir g prt.x then {prt.rest} else 0 := by
        intro dir hdir
        unfold sendOf
        rw [hf]
        by_cases h : dir = newDir g prt.x
        · subst h; simp
        · have h' : ¬ dir2idx (newDir g prt.x) = dir2idx dir := fun h' =>
            h (dir2idx_inj hd (mem_dirs.1 hdir) h').symm
          simp [h, h']
      rw [List.map_congr_left e, sum_single' dirs nodup_dirs (newDir g prt.x) (fun _ => ({prt.rest} : Multiset A)),
        if_pos (mem_dirs.2 hd)]
      simp [keepOf, hf]

/-! ## entries -/

theorem neiP_eq {D : Decomp} {me p : ℕ} {dir : I3} {rq : ℕ × ℕ} :
    neiP D me p dir = some rq ↔ ¬ IsZero dir ∧ D.nei me p dir = some rq := by
  unfold neiP
  by_cases h : IsZero dir
  · have h' : dir 0 = 0 ∧ dir 1 = 0 ∧ dir 2 = 0 := h
    simp [h, h']
  · have h' : ¬ (dir 0 = 0 ∧ dir 1 = 0 ∧ dir 2 = 0) := h
    rw [if_neg h']
    simp [h]

theorem neiP_symm {D : Decomp} (hD : D.Valid) {r p r' p' : ℕ} {dir : I3} (h : D.Has r p) (h' : D.Has r' p')
    (hd : IsDir dir) :
    neiP D r p dir = some (r', p') ↔ neiP D r' p' (fun d => -dir d) = some (r, p) := by
  rw [neiP_eq, neiP_eq, nei_unique_symm hD h h' hd, IsZero.neg_iff]

theorem dir2idx_neg (dir : I3) : dir2idx (fun d => -dir d) = 26 - dir2idx dir := by
  unfold dir2idx; ring

/-- a dummy region -/
def noReg : I3 → Box := fun _ => ⟨fun _ => 0, fun _ => 0⟩

theorem send_entries_eq {D : Decomp} {me r : ℕ} (h : r ≠ me) :
    send_entries D me r = (entries noReg D me r).map fun e => ⟨e.patch, e.nei_patch, e.dir1, 26 - e.dir1⟩ := by
  unfold send_entries entries
  rw [List.map_flatMap]
  refine List.flatMap_congr fun p _ => ?_
  rw [List.map_filterMap]
  refine List.filterMap_congr fun dir _ => ?_
  unfold neiP init
  by_cases hz : dir 0 = 0 ∧ dir 1 = 0 ∧ dir 2 = 0
  · simp [hz]
  · simp only [hz, if_false]
    cases D.nei me p dir with
    | none => rfl
    | some rq =>
      obtain ⟨r', q⟩ := rq
      simp only [Option.map_some]
      by_cases h1 : r' = me
      · subst h1
        rw [if_pos rfl, if_neg (Ne.symm h)]; rfl
      · rw [if_neg h1]
        by_cases h2 : r' = r
        · rw [if_pos h2, if_pos h2]
          simp only [Option.map_some, dir2idx_neg]
        · rw [if_neg h2, if_neg h2]; rfl

theorem send_entries_self (D : Decomp) (me : ℕ) : send_entries D me me = [] := by
  unfold send_entries
  rw [List.flatMap_eq_nil_iff]
  intro p _
  rw [List.filterMap_eq_nil_iff]
  intro dir _
  cases neiP D me p dir with
  | none => rfl
  | some rq => simp only; split_ifs <;> rfl

theorem n_recv_entries_eq (D : Decomp) (me r : ℕ) : n_recv_entries D me r = (send_entries D me r).length := by
  unfold n_recv_entries send_entries
  rw [List.length_flatMap, List.length_flatMap]
  congr 1
  refine List.map_congr_left fun p _ => ?_
  have : (dirs.filterMap fun dir => match neiP D me p dir with
      | some (r', _) => if r' = me then none else if r' = r then some () else none
      | none => none) = (dirs.filterMap fun dir =>
      match neiP D me p dir with
      | some (r', q) => if r' = me then none else
          if r' = r then some (⟨p, q, dir2idx dir, dir2idx fun d => -dir d⟩ : DSend) else none
      | none => none).map fun _ => () := by
    rw [List.map_filterMap]
    refine List.filterMap_congr fun dir _ => ?_
    cases neiP D me p dir with
    | none => rfl
    | some rq => simp only; split_ifs <;> rfl
  exact (congrArg List.length this).trans (List.length_map _)

theorem entries_length_symm {D : Decomp} (hD : D.Valid) (reg : I3 → Box) (r me : ℕ) :
    (entries reg D r me).length = (entries reg D me r).length := by
  rw [(matched reg reg D r me).length_eq]
  exact (rlist_perm hD me r).length_eq

theorem send_entries_length {D : Decomp} (hD : D.Valid) (me r : ℕ) :
    (send_entries D r me).length = n_recv_entries D me r := by
  rw [n_recv_entries_eq]
  by_cases h : r = me
  · subst h; rfl
  · rw [send_entries_eq h, send_entries_eq (Ne.symm h), List.length_map, List.length_map, entries_length_symm hD]

theorem recv_entry_eq {D : Decomp} (hD : D.Valid) (me r : ℕ) :
    recv_entry D me r = some ((send_entries D r me).map DSend.asRecv) := by
  unfold recv_entry
  rw [if_pos (send_entries_length hD me r)]

/-! ## comm -/

variable {P : Type}

/-- what patch `p` of `me` gets from rank `r` -/
def fromRank (D : Decomp) (sb : SendBufs P) (me r p : ℕ) : List P :=
  (send_entries D r me).flatMap fun se => if se.nei_patch = p then sb r se.patch se.dir1 else []

theorem copyRecv_eq (sb : ℕ → ℤ → List P) (l : List DSend) (tail : List P) (B : ℕ → List P) :
    copyRecv (l.map DSend.asRecv) (l.map fun se => (sb se.patch se.dir1).length)
      ((l.flatMap fun se => sb se.patch se.dir1) ++ tail, B) =
      (tail, fun p => B p ++ l.flatMap fun se => if se.nei_patch = p then sb se.patch se.dir1 else []) := by
  unfold copyRecv
  induction l generalizing B with
  | nil => simp
  | cons e l ih =>
    simp only [List.map_cons, List.zip_cons_cons, List.foldl_cons, List.flatMap_cons, List.append_assoc]
    rw [List.drop_left, List.take_left, ih]
    congr 1
    funext p
    by_cases h : e.nei_patch = p
    · subst h
      simp [DSend.asRecv]
    · simp only [DSend.asRecv]
      rw [Function.update_of_ne (Ne.symm h), if_neg h, List.nil_append]

theorem copy_all (D : Decomp) (sb : SendBufs P) (me : ℕ) (ranks : List ℕ) (B : ℕ → List P) :
    (ranks.map fun r => ((send_entries D r me).map DSend.asRecv, recv_cnts D sb me r)).foldl
      (fun s rc => copyRecv rc.1 rc.2 s) (ranks.flatMap (message D sb me), B) =
      ([], fun p => B p ++ ranks.flatMap fun r => fromRank D sb me r p) := by
  induction ranks generalizing B with
  | nil => simp
  | cons r l ih =>
    rw [List.map_cons, List.foldl_cons, List.flatMap_cons]
    have := copyRecv_eq (sb r) (send_entries D r me) (l.flatMap (message D sb me)) B
    unfold message recv_cnts at *
    rw [this, ih]
    simp only [Prod.mk.injEq, true_and]
    funext p
    rw [List.flatMap_cons, List.append_assoc]
    rfl

theorem mapM_some {α β : Type} (f : α → Option β) (g : α → β) (l : List α) (h : ∀ a ∈ l, f a = some (g a)) :
    l.mapM f = some (l.map g) := by
  induction l with
  | nil => rfl
  | cons a l ih =>
    rw [List.mapM_cons, h a List.mem_cons_self, ih fun b hb => h b (List.mem_cons_of_mem _ hb)]
    rfl

theorem n_local_eq (D : Decomp) (sb : SendBufs P) (me p : ℕ) : n_local D sb me p = (fromLocal D sb me p).length := by
  unfold n_local fromLocal
  rw [List.length_flatMap]
  refine congrArg List.sum (List.map_congr_left fun dir _ => ?_)
  cases neiP D me p dir with
  | none => rfl
  | some rq => simp only; split_ifs <;> rfl

theorem fromRank_length (D : Decomp) (sb : SendBufs P) (me r p : ℕ) :
    (fromRank D sb me r p).length = ((((send_entries D r me).map DSend.asRecv).zip (recv_cnts D sb me r)).map
      fun ec => if ec.1.patch = p then ec.2 else 0).sum := by
  unfold fromRank recv_cnts
  rw [List.length_flatMap, List.zip_map', List.map_map]
  refine congrArg List.sum (List.map_congr_left fun se _ => ?_)
  simp only [Function.comp_apply, DSend.asRecv]
  split_ifs <;> rfl

theorem comm_eq {D : Decomp} (hD : D.Valid) (sb : SendBufs P) (bufs : ℕ → List P) (me : ℕ) :
    comm D sb bufs me = some fun p => bufs p ++ fromLocal D sb me p ++ (nbrs D me).flatMap fun r => fromRank D sb me r p := by
  unfold comm
  have h1 : (nbrs D me).mapM (fun r => (recv_entry D me r).map fun re => (re, recv_cnts D sb me r)) =
      some ((nbrs D me).map fun r => ((send_entries D r me).map DSend.asRecv, recv_cnts D sb me r)) := by
    refine mapM_some _ _ _ fun r _ => ?_
    rw [recv_entry_eq hD]; rfl
  simp only [Option.bind_eq_bind]
  rw [h1]
  simp only [Option.bind_some]
  have h2 := copy_all D sb me (nbrs D me) (fun p => bufs p ++ fromLocal D sb me p)
  rw [h2]
  rw [if_pos]
  · refine ⟨rfl, fun p _ => ?_⟩
    simp only [List.length_append, n_local_eq, List.length_flatMap, List.map_map, Function.comp_def, add_assoc,
      fromRank_length]

/-- the buffers aimed at patch `p` of `me` held by rank `r` -/
def aimed (D : Decomp) (sb : SendBufs P) (me p r : ℕ) : List P :=
  (List.range (D.nr_patches r)).flatMap fun q => dirs.flatMap fun dir =>
    if neiP D r q dir = some (me, p) then sb r q (dir2idx dir) else []

theorem fromRank_eq (D : Decomp) (sb : SendBufs P) (me r p : ℕ) (h : r ≠ me) :
    fromRank D sb me r p = aimed D sb me p r := by
  unfold fromRank send_entries aimed
  rw [List.flatMap_assoc]
  refine List.flatMap_congr fun q _ => ?_
  generalize dirs = l
  induction l with
  | nil => rfl
  | cons dir l ih =>
    rw [List.flatMap_cons, ← ih]
    cases hn : neiP D r q dir with
    | none =>
      rw [List.filterMap_cons_none (by simp [hn])]
      simp
    | some rq =>
      obtain ⟨r', q'⟩ := rq
      by_cases h1 : r' = me
      · subst h1
        rw [List.filterMap_cons_some (b := ⟨q, q', dir2idx dir, dir2idx fun d => -dir d⟩)
          (by simp only [hn]; rw [if_neg (Ne.symm h)]; simp)]
        rw [List.flatMap_cons]
        congr 1
        simp
      · have : ¬ (some (r', q') = some (me, p)) := by simp [h1]
        rw [if_neg this, List.nil_append, List.filterMap_cons_none]
        simp only [hn]
        split_ifs <;> rfl

theorem fromLocal_perm {D : Decomp} (hD : D.Valid) (sb : SendBufs P) (me p : ℕ) (h : D.Has me p) :
    (fromLocal D sb me p).Perm (aimed D sb me p me) := by
  rw [← Multiset.coe_eq_coe]
  unfold fromLocal aimed
  simp only [coe_flatMap]
  rw [list_sum_comm]
  have e : ∀ dir ∈ dirs, ((match neiP D me p dir with
      | some (r, q) => if r = me then sb me q (dir2idx fun d => -dir d) else []
      | none => [] : List P) : Multiset P) =
      ((List.range (D.nr_patches me)).map fun q =>
        ((if neiP D me q (fun d => -dir d) = some (me, p) then sb me q (dir2idx fun d => -dir d) else [] : List P) :
          Multiset P)).sum := by
    intro dir hdir
    have hd := mem_dirs.1 hdir
    have hs : ∀ q ∈ List.range (D.nr_patches me),
        ((if neiP D me q (fun d => -dir d) = some (me, p) then sb me q (dir2idx fun d => -dir d) else [] : List P) :
          Multiset P) =
        if neiP D me p dir = some (me, q) then ((sb me q (dir2idx fun d => -dir d) : List P) : Multiset P) else 0 := by
      intro q hq
      have := neiP_symm hD h (has_iff.2 (List.mem_range.1 hq)) hd
      rw [apply_ite (fun l : List P => (l : Multiset P))]
      exact if_congr this.symm rfl rfl
    rw [List.map_congr_left hs]
    cases hn : neiP D me p dir with
    | none => simp
    | some rq =>
      obtain ⟨r, q⟩ := rq
      simp only
      by_cases hr : r = me
      · subst hr
        have hh := (C26_neighbour_symm D hD r p r q dir h hd (neiP_eq.1 hn).2).1
        rw [if_pos rfl]
        have e2 : ∀ x, (some (r, q) = some (r, x)) ↔ x = q := by intro x; simp [eq_comm]
        simp only [e2]
        rw [sum_single' _ List.nodup_range q (fun q => ((sb r q (dir2idx fun d => -dir d) : List P) : Multiset P)),
          if_pos (List.mem_range.2 (has_iff.1 hh))]
      · rw [if_neg hr]
        have e2 : ∀ x, ¬ (some (r, q) = some (me, x)) := by intro x; simp [hr]
        simp only [e2, if_false]
        simp
  refine (congrArg List.sum (List.map_congr_left e)).trans ?_
  have : (dirs.map fun dir => ((List.range (D.nr_patches me)).map fun q =>
        ((if neiP D me q (fun d => -dir d) = some (me, p) then sb me q (dir2idx fun d => -dir d) else [] : List P) :
          Multiset P)).sum) =
      (dirs.map fun dir : I3 => (fun d => -dir d : I3)).map fun dir =>
        ((List.range (D.nr_patches me)).map fun q =>
        ((if neiP D me q dir = some (me, p) then sb me q (dir2idx dir) else [] : List P) :
          Multiset P)).sum := by
    rw [List.map_map]; rfl
  rw [this, (dirs_neg_perm.map _).sum_eq]

/-- all buffers aimed at a patch -/
theorem comm_perm {D : Decomp} (hD : D.Valid) (sb : SendBufs P) (me p : ℕ) (h : D.Has me p) :
    (fromLocal D sb me p ++ (nbrs D me).flatMap fun r => fromRank D sb me r p).Perm
      ((List.range D.counts.length).flatMap (aimed D sb me p)) := by
  have e1 : ((nbrs D me).flatMap fun r => fromRank D sb me r p) =
      ((List.range D.counts.length).filter (· ≠ me)).flatMap (aimed D sb me p) := by
    unfold nbrs
    generalize List.range D.counts.length = l
    induction l with
    | nil => rfl
    | cons r l ih =>
      by_cases hr : r = me
      · subst hr
        rw [List.filter_cons_of_neg, List.filter_cons_of_neg (by simp)]
        · exact ih
        · simp [n_recv_entries_eq, send_entries_self]
      · rw [List.filter_cons_of_pos (p := (· ≠ me)) (by simpa using hr), List.flatMap_cons, ← ih]
        by_cases hn : n_recv_entries D me r = 0
        · rw [List.filter_cons_of_neg (by simp [hn])]
          have hs : send_entries D r me = [] := by
            rw [← List.length_eq_zero_iff, send_entries_length hD]; exact hn
          rw [← fromRank_eq D sb me r p hr]
          simp [fromRank, hs]
        · rw [List.filter_cons_of_pos (by simpa using hn), List.flatMap_cons, fromRank_eq D sb me r p hr]
  rw [e1]
  refine ((fromLocal_perm hD sb me p h).append_right _).trans ?_
  rw [← List.flatMap_cons]
  exact (ranks_perm _ _ h.1).flatMap_right _

theorem not_isZero {dir : I3} : ¬ IsZero dir ↔ ∃ d, dir d ≠ 0 := by
  constructor
  · intro h
    by_contra hcon
    push Not at hcon
    exact h ⟨hcon 0, hcon 1, hcon 2⟩
  · rintro ⟨d, hd⟩ ⟨h0, h1, h2⟩
    fin_cases d
    · exact hd h0
    · exact hd h1
    · exact hd h2

theorem mem_allPatches {D : Decomp} {r p : ℕ} : (r, p) ∈ allPatches D ↔ D.Has r p := by
  unfold allPatches
  simp only [List.mem_flatMap, List.mem_range, List.mem_map, Prod.mk.injEq]
  constructor
  · rintro ⟨a, ha, b, hb, rfl, rfl⟩
    exact has_iff.2 hb
  · intro h
    exact ⟨r, h.1, p, has_iff.1 h, rfl, rfl⟩

theorem nodup_allPatches (D : Decomp) : (allPatches D).Nodup := by
  unfold allPatches
  rw [List.nodup_flatMap]
  refine ⟨fun r _ => List.nodup_range.map fun a b h => by simpa using h, ?_⟩
  refine List.nodup_range.imp ?_
  intro a b hab x hx hy
  simp only [List.mem_map] at hx hy
  obtain ⟨p, _, rfl⟩ := hx
  obtain ⟨q, _, hq⟩ := hy
  simp only [Prod.mk.injEq] at hq
  exact hab hq.1.symm

theorem aimed_all (D : Decomp) (sb : SendBufs P) (me p : ℕ) :
    (List.range D.counts.length).flatMap (aimed D sb me p) =
    (allPatches D).flatMap fun rq => dirs.flatMap fun dir =>
      if neiP D rq.1 rq.2 dir = some (me, p) then sb rq.1 rq.2 (dir2idx dir) else [] := by
  unfold allPatches aimed
  rw [List.flatMap_assoc]
  refine List.flatMap_congr fun r _ => ?_
  rw [List.flatMap_map]

theorem total_perm {D : Decomp} (hD : D.Valid) (sb : SendBufs P) (bufs : ℕ → ℕ → List P)
    (hsb : ∀ r q dir, D.Has r q → IsDir dir → (∃ d, dir d ≠ 0) → D.nei r q dir = none → sb r q (dir2idx dir) = []) :
    ((allPatches D).flatMap fun rp =>
        bufs rp.1 rp.2 ++ fromLocal D sb rp.1 rp.2 ++ (nbrs D rp.1).flatMap fun r => fromRank D sb rp.1 r rp.2).Perm
      (((allPatches D).flatMap fun rp => bufs rp.1 rp.2) ++
        (allPatches D).flatMap fun rp => dirs.flatMap fun dir =>
          if ∃ d, dir d ≠ 0 then sb rp.1 rp.2 (dir2idx dir) else []) := by
  have h1 : ∀ rp ∈ allPatches D, ((bufs rp.1 rp.2 ++ fromLocal D sb rp.1 rp.2 ++
      (nbrs D rp.1).flatMap fun r => fromRank D sb rp.1 r rp.2 : List P) : Multiset P) =
      (bufs rp.1 rp.2 : Multiset P) + ((allPatches D).map fun rq => (dirs.map fun dir =>
        if neiP D rq.1 rq.2 dir = some (rp.1, rp.2) then (sb rq.1 rq.2 (dir2idx dir) : Multiset P) else 0).sum).sum := by
    rintro ⟨me, p⟩ h
    rw [List.append_assoc, ← Multiset.coe_add]
    congr 1
    rw [Multiset.coe_eq_coe.2 (comm_perm hD sb me p (mem_allPatches.1 h)), aimed_all, coe_flatMap]
    simp only [coe_flatMap]
    refine congrArg List.sum (List.map_congr_left fun rq _ => ?_)
    refine congrArg List.sum (List.map_congr_left fun dir _ => ?_)
    rw [apply_ite (fun l : List P => (l : Multiset P))]
    rfl
  rw [← Multiset.coe_eq_coe, coe_flatMap, List.map_congr_left h1, List.sum_map_add, ← Multiset.coe_add,
    coe_flatMap]
  congr 1
  rw [list_sum_comm, coe_flatMap]
  refine congrArg List.sum (List.map_congr_left fun rq hrq => ?_)
  rw [list_sum_comm, coe_flatMap]
  refine congrArg List.sum (List.map_congr_left fun dir hdir => ?_)
  obtain ⟨r, q⟩ := rq
  have hh := mem_allPatches.1 hrq
  have hd := mem_dirs.1 hdir
  by_cases hz : ∃ d, dir d ≠ 0
  · rw [if_pos hz]
    cases hn : D.nei r q dir with
    | none =>
      have : neiP D r q dir = none := by
        unfold neiP; split_ifs
        · rfl
        · exact hn
      simp only [this, hsb r q dir hh hd hz hn]
      simp
    | some rp =>
      obtain ⟨r', p'⟩ := rp
      have : neiP D r q dir = some (r', p') := neiP_eq.2 ⟨not_isZero.2 hz, hn⟩
      have hh' := (C26_neighbour_symm D hD r q r' p' dir hh hd hn).1
      have e : ∀ x : ℕ × ℕ, (some (r', p') = some (x.1, x.2)) ↔ x = (r', p') := by
        intro x; simp only [Option.some.injEq]; exact eq_comm
      simp only [this, e]
      rw [sum_single' _ (nodup_allPatches D) (r', p') (fun _ => (sb r q (dir2idx dir) : Multiset P)),
        if_pos (mem_allPatches.2 hh')]
  · rw [if_neg hz]
    have : neiP D r q dir = none := by
      unfold neiP; rw [if_pos]
      push Not at hz
      exact ⟨hz 0, hz 1, hz 2⟩
    simp [this]

/-- `process_and_exchange` is `process_patch` everywhere followed by `comm` -/
theorem exchange_eq (g : ExchP K) (hg : ∀ d, 0 < g.ldims d ∧ 0 < g.dx d) (prts : ℕ → ℕ → List (Prt K A))
    (hn : AllNear g prts) :
    ∃ pb : ℕ → ℕ → PatchBuf K A,
      (∀ r p, g.D.Has r p → pb r p = ⟨(prts r p).filterMap (keepOf (g.patch r p)),
        fun k => (prts r p).filterMap (sendOf (g.patch r p) k)⟩) ∧
      ∀ me < g.D.counts.length,
        exchange g prts me = comm g.D (fun r p => (pb r p).send) (fun p => (pb me p).kept) me := by
  have h : ((List.range g.D.counts.length).mapM fun r =>
      (List.range (g.D.nr_patches r)).mapM fun p => process_patch (g.patch r p) (prts r p)) =
      some ((List.range g.D.counts.length).map fun r => (List.range (g.D.nr_patches r)).map fun p =>
        ⟨(prts r p).filterMap (keepOf (g.patch r p)), fun k => (prts r p).filterMap (sendOf (g.patch r p) k)⟩) := by
    refine mapM_some _ _ _ fun r hr => ?_
    refine mapM_some _ _ _ fun p hp => ?_
    exact process_patch_eq (g := g.patch r p) hg _ (hn r p (has_iff.2 (List.mem_range.1 hp)))
  refine ⟨fun r p => (((List.range g.D.counts.length).map fun r => (List.range (g.D.nr_patches r)).map fun p =>
        (⟨(prts r p).filterMap (keepOf (g.patch r p)),
          fun k => (prts r p).filterMap (sendOf (g.patch r p) k)⟩ : PatchBuf K A)).getD r []).getD p
            ⟨[], fun _ => []⟩, ?_, fun me _ => ?_⟩
  rotate_left
  · unfold exchange
    rw [h]
    rfl
  · intro r p hh
    have h1 := hh.1
    have h2 := has_iff.1 hh
    simp only [List.getD_eq_getElem?_getD, List.getElem?_map]
    rw [List.getElem?_range h1]
    simp [List.getElem?_range h2]

theorem send_empty (g : ExchP K) (hD : g.D.Valid) (hg : ∀ d, 0 < g.ldims d ∧ 0 < g.dx d)
    {r q : ℕ} (hh : g.D.Has r q) {l : List (Prt K A)}
    (hper : ∀ d, g.prt_lo d = .periodic ∨ g.prt_hi d = .periodic → g.D.bc d = true ∨
      ∀ prt ∈ l, 0 ≤ prt.x d ∧ prt.x d < (g.patch r q).size d)
    {dir : I3} (hd : IsDir dir) (hno : g.D.nei r q dir = none) :
    l.filterMap (sendOf (g.patch r q) (dir2idx dir)) = [] := by
  rw [List.filterMap_eq_nil_iff]
  intro prt hprt
  unfold sendOf fate
  split_ifs with h1 h2
  · rfl
  · rfl
  · simp only
    split_ifs with h3
    · exfalso
      have := dir2idx_inj (newDir_isDir _ _) hd h3
      subst this
      have hex : ¬ ∃ r' p', g.D.nei r q (newDir (g.patch r q) prt.x) = some (r', p') := by
        rintro ⟨a, b, hab⟩; rw [hno] at hab; simp at hab
      rw [C26_neighbour_exists g.D hD r q _ hh hd] at hex
      apply hex
      intro d
      by_cases hb : g.D.bc d = true
      · exact Or.inl hb
      right
      have hin := (C25_idx3_owner g.D hD r q hh).1 d
      have hL := (hg d).1
      have e1 : (g.patch r q).atLo d = decide ((g.D.idx3 r q d : ℤ) * g.ldims d = 0) := rfl
      have e2 : (g.patch r q).atHi d = decide ((g.D.idx3 r q d : ℤ) * g.ldims d + g.ldims d = g.D.np d * g.ldims d) := rfl
      have e3 : (g.patch r q).prt_lo = g.prt_lo := rfl
      have e4 : (g.patch r q).prt_hi = g.prt_hi := rfl
      by_cases hst : 0 ≤ prt.x d ∧ prt.x d < (g.patch r q).size d
      · have : newDir (g.patch r q) prt.x d = 0 := by
          unfold newDir
          rw [if_neg (not_lt.2 hst.1), if_neg (not_le.2 hst.2)]
        omega
      have hlo : g.prt_lo d ≠ .periodic := fun h => (hper d (Or.inl h)).elim hb fun h' => hst (h' prt hprt)
      have hhi : g.prt_hi d ≠ .periodic := fun h => (hper d (Or.inr h)).elim hb fun h' => hst (h' prt hprt)
      unfold newDir
      rw [e1, e2, e3, e4]
      generalize g.D.idx3 r q d = i at *
      split_ifs with a b c e
      · simp only [hlo, decide_false, Bool.or_false, Bool.not_eq_true', decide_eq_false_iff_not] at b
        have : (i : ℤ) ≠ 0 := fun h => b (by rw [h]; ring)
        omega
      · omega
      · simp only [hhi, decide_false, Bool.or_false, Bool.not_eq_true', decide_eq_false_iff_not] at e
        have : (i : ℤ) + 1 ≠ g.D.np d := fun h => e (by rw [← h]; ring)
        omega
      · omega
      · omega
    · rfl

end Psc.Bndp
