import Verif.Props.Bndp

/-!
# Sums over all particles under the exchange
-/

namespace Psc.Bndp

open Domain Ddc Props

variable {K A R : Type} [Field K] [LinearOrder K] [IsStrictOrderedRing K] [FloorRing K] [AddCommMonoid R]

theorem sum_map_perm {P : Type} (f : P → R) {l l' : List P} (h : l.Perm l') : (l.map f).sum = (l'.map f).sum :=
  (h.map f).sum_eq

theorem sum_map_flatMap {α P : Type} (f : P → R) (l : List α) (g : α → List P) :
    ((l.flatMap g).map f).sum = (l.map fun a => ((g a).map f).sum).sum := by
  induction l with
  | nil => simp
  | cons a l ih => rw [List.flatMap_cons, List.map_append, List.sum_append, ih, List.map_cons, List.sum_cons]

theorem sum_map_filterMap {α P : Type} (f : P → R) (l : List α) (g : α → Option P) :
    ((l.filterMap g).map f).sum = (l.map fun a => ((g a).toList.map f).sum).sum := by
  induction l with
  | nil => simp
  | cons a l ih =>
    rw [List.filterMap_cons, List.map_cons, List.sum_cons, ← ih]
    cases g a <;> simp

/-- the sum over all particles received, each weighted at the patch that receives it -/
theorem comm_weight {P : Type} {D : Decomp} (hD : D.Valid) (sb : SendBufs P) (bufs T : ℕ → ℕ → List P)
    (hT : ∀ me < D.counts.length, comm D sb (bufs me) me = some (T me)) (w : ℕ × ℕ → P → R) :
    ((allPatches D).map fun rp => ((T rp.1 rp.2).map (w rp)).sum).sum =
      ((allPatches D).map fun rp => ((bufs rp.1 rp.2).map (w rp)).sum).sum +
      ((allPatches D).map fun rp => (dirs.map fun dir =>
        match neiP D rp.1 rp.2 dir with
        | some rp' => ((sb rp.1 rp.2 (dir2idx dir)).map (w rp')).sum
        | none => 0).sum).sum := by
  have h1 : ∀ rp ∈ allPatches D, ((T rp.1 rp.2).map (w rp)).sum = ((bufs rp.1 rp.2).map (w rp)).sum +
      ((allPatches D).map fun rq => (dirs.map fun dir =>
        if neiP D rq.1 rq.2 dir = some rp then ((sb rq.1 rq.2 (dir2idx dir)).map (w rp)).sum else 0).sum).sum := by
    rintro ⟨me, p⟩ h
    have hh := mem_allPatches.1 h
    have e := comm_eq hD sb (bufs me) me
    rw [hT me hh.1, Option.some.injEq] at e
    simp only
    rw [e]
    simp only
    rw [List.append_assoc, List.map_append, List.sum_append]
    congr 1
    rw [sum_map_perm _ (comm_perm hD sb me p hh), aimed_all, sum_map_flatMap]
    refine congrArg List.sum (List.map_congr_left fun rq _ => ?_)
    rw [sum_map_flatMap]
    refine congrArg List.sum (List.map_congr_left fun dir _ => ?_)
    split_ifs <;> simp
  rw [List.map_congr_left h1, List.sum_map_add]
  congr 1
  rw [list_sum_comm]
  refine congrArg List.sum (List.map_congr_left fun rq hrq => ?_)
  rw [list_sum_comm]
  refine congrArg List.sum (List.map_congr_left fun dir hdir => ?_)
  obtain ⟨r, q⟩ := rq
  have hh := mem_allPatches.1 hrq
  simp only
  cases hn : neiP D r q dir with
  | none => simp
  | some rp' =>
    obtain ⟨r', p'⟩ := rp'
    have hh' := (C26_neighbour_symm D hD r q r' p' dir hh (mem_dirs.1 hdir) (neiP_eq.1 hn).2).1
    have e : ∀ x : ℕ × ℕ, (some (r', p') = some x) ↔ x = (r', p') := by
      intro x; simp only [Option.some.injEq]; exact eq_comm
    simp only [e]
    rw [sum_single' _ (nodup_allPatches D) (r', p') (fun x => ((sb r q (dir2idx dir)).map (w x)).sum),
      if_pos (mem_allPatches.2 hh')]

/-- The exchange does not change the sum over all particles of a weight that may depend on the patch holding the particle,
if the weight of every particle is the same before and after it is re-expressed in the frame of the patch it goes to, and
particles that leave the domain have weight 0. -/
theorem exchange_weight (g : ExchP K) (hD : g.D.Valid) (hg : ∀ d, 0 < g.ldims d ∧ 0 < g.dx d)
    (prts : ℕ → ℕ → List (Prt K A)) (hn : AllNear g prts)
    (hper : ∀ d, g.prt_lo d = .periodic ∨ g.prt_hi d = .periodic → g.D.bc d = true ∨
      ∀ r p, g.D.Has r p → ∀ q ∈ prts r p, 0 ≤ q.x d ∧ q.x d < (g.patch r p).size d)
    (T : ℕ → ℕ → List (Prt K A)) (hT : ∀ me < g.D.counts.length, exchange g prts me = some (T me))
    (w : ℕ × ℕ → Prt K A → R)
    (hleave : ∀ r p, g.D.Has r p → ∀ q ∈ prts r p, Leaves (g.patch r p) q.x → w (r, p) q = 0)
    (hk : ∀ r p, g.D.Has r p → ∀ q ∈ prts r p, ∀ q', process1 (g.patch r p) q = some (.keep q') → w (r, p) q' = w (r, p) q)
    (hs : ∀ r p, g.D.Has r p → ∀ q ∈ prts r p, ∀ dir q' rp', process1 (g.patch r p) q = some (.send dir q') →
      g.D.nei r p dir = some rp' → w rp' q' = w (r, p) q) :
    ((allPatches g.D).map fun rp => ((T rp.1 rp.2).map (w rp)).sum).sum =
      ((allPatches g.D).map fun rp => ((prts rp.1 rp.2).map (w rp)).sum).sum := by
  obtain ⟨pb, hpb, hex⟩ := exchange_eq g hg prts hn
  rw [comm_weight hD (fun r p => (pb r p).send) (fun r p => (pb r p).kept) T
    (fun me hme => (hex me hme).symm.trans (hT me hme)) w, ← List.sum_map_add]
  refine congrArg List.sum (List.map_congr_left fun rp hrp => ?_)
  obtain ⟨r, p⟩ := rp
  have hh := mem_allPatches.1 hrp
  simp only [hpb r p hh]
  rw [sum_map_filterMap]
  have e2 : ∀ dir ∈ dirs, (match neiP g.D r p dir with
      | some rp' => (((prts r p).filterMap (sendOf (g.patch r p) (dir2idx dir))).map (w rp')).sum
      | none => 0) = ((prts r p).map fun a =>
        if IsZero dir then 0 else ((sendOf (g.patch r p) (dir2idx dir) a).toList.map fun _ => w (r, p) a).sum).sum := by
    intro dir hdir
    have hd := mem_dirs.1 hdir
    cases hnei : neiP g.D r p dir with
    | none =>
      simp only
      by_cases hz : IsZero dir
      · simp [hz]
      · have hnone : g.D.nei r p dir = none := by
          unfold neiP at hnei
          rwa [if_neg (show ¬ (dir 0 = 0 ∧ dir 1 = 0 ∧ dir 2 = 0) from hz)] at hnei
        have := send_empty g hD hg hh (l := prts r p)
          (fun d h => (hper d h).imp_right fun h' => h' r p hh) hd hnone
        rw [List.filterMap_eq_nil_iff] at this
        rw [eq_comm]
        apply List.sum_eq_zero
        intro x hx
        obtain ⟨a, ha, rfl⟩ := List.mem_map.1 hx
        rw [this a ha]
        simp
    | some rp' =>
      simp only
      obtain ⟨hz, hn'⟩ := neiP_eq.1 hnei
      rw [sum_map_filterMap]
      refine congrArg List.sum (List.map_congr_left fun a ha => ?_)
      rw [if_neg hz]
      cases hsa : sendOf (g.patch r p) (dir2idx dir) a with
      | none => rfl
      | some q' =>
        have hf : process1 (g.patch r p) a = some (.send dir q') := by
          rw [process1_eq (g := g.patch r p) hg (hn r p hh a ha)]
          unfold sendOf at hsa
          cases hfa : fate (g.patch r p) a with
          | keep q => rw [hfa] at hsa; simp at hsa
          | drop => rw [hfa] at hsa; simp at hsa
          | send dir' q =>
            rw [hfa] at hsa
            simp only at hsa
            split_ifs at hsa with he
            have hd' : IsDir dir' := by
              unfold fate at hfa
              split_ifs at hfa
              rw [Fate.send.injEq] at hfa
              rw [← hfa.1]; exact newDir_isDir _ _
            rw [Option.some.injEq] at hsa
            rw [dir2idx_inj hd' hd he, hsa]
        simp [hs r p hh a ha dir q' rp' hf hn']
  rw [List.map_congr_left e2, list_sum_comm, ← List.sum_map_add]
  refine congrArg List.sum (List.map_congr_left fun a ha => ?_)
  by_cases hl : Leaves (g.patch r p) a.x
  · have hf : fate (g.patch r p) a = .drop := by unfold fate; rw [if_pos hl]
    rw [hleave r p hh a ha hl]
    simp [keepOf, sendOf, hf]
  by_cases hz : IsZero (newDir (g.patch r p) a.x)
  · have hf : fate (g.patch r p) a = .keep ⟨newX (g.patch r p) a.x, newU (g.patch r p) a.x a.u, a.rest⟩ := by
      unfold fate; rw [if_neg hl, if_pos hz]
    have h1 := hk r p hh a ha _ ((process1_eq (g := g.patch r p) hg (hn r p hh a ha)).trans (by rw [hf]))
    simp [keepOf, sendOf, hf, h1]
  · have hf : fate (g.patch r p) a =
        .send (newDir (g.patch r p) a.x) ⟨newX (g.patch r p) a.x, newU (g.patch r p) a.x a.u, a.rest⟩ := by
      unfold fate; rw [if_neg hl, if_neg hz]
    have hd := newDir_isDir (g.patch r p) a.x
    have e : ∀ dir ∈ dirs, (if IsZero dir then 0 else
        ((sendOf (g.patch r p) (dir2idx dir) a).toList.map fun _ => w (r, p) a).sum) =
        if dir = newDir (g.patch r p) a.x then w (r, p) a else 0 := by
      intro dir hdir
      unfold sendOf
      rw [hf]
      by_cases h : dir = newDir (g.patch r p) a.x
      · subst h; simp [hz]
      · have h' : ¬ dir2idx (newDir (g.patch r p) a.x) = dir2idx dir := fun h' =>
          h (dir2idx_inj hd (mem_dirs.1 hdir) h').symm
        simp [h, h']
    rw [List.map_congr_left e, sum_single' dirs nodup_dirs (newDir (g.patch r p) a.x) (fun _ => w (r, p) a),
      if_pos (mem_dirs.2 hd)]
    simp [keepOf, hf]

end Psc.Bndp
