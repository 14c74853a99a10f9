import Verif.Lemmas.DomainSimple
import Mathlib.Tactic.NormNum

/-!
# C98: domains with one patch per process
-/

namespace Psc.Props

open Psc Psc.DomainSimple

variable {size : ℤ} {np : I3} {ldims : ℤ → I3}

/-- Setting up the domain never deadlocks: whatever happened so far, if some process is not through, some process can go on,
even if no message is buffered. -/
theorem C98_progress (hL : Layout size np) {s : St} (h : Reachable size np ldims s) (hd : ¬ s.done size) :
    ∃ s', Step size np ldims false s s' := (h.inv hL).progress hL hd

/-- ... and it ends: there is no longer sequence of steps than six per process. -/
theorem C98_terminates (hL : Layout size np) (b : Bool) (n : ℕ) (f : ℕ → St) (h0 : f 0 = init)
    (h : ∀ i < n, Step size np ldims b (f i) (f (i + 1))) : (n : ℤ) ≤ 6 * size := by
  have key : ∀ i ≤ n, left size (f i) + i ≤ left size (f 0) := by
    intro i
    induction i with
    | zero => intro _; omega
    | succ i ih =>
      intro hi
      have := ih (by omega)
      have := (h i (by omega)).left_lt
      omega
  have := key n le_rfl
  rw [h0] at this
  rw [← left_init hL]
  omega

/-- ... so that all processes get through, with or without buffering. -/
theorem C98_completes (hL : Layout size np) (b : Bool) :
    ∃ s, Relation.ReflTransGen (Step size np ldims b) init s ∧ s.done size :=
  Inv.init.completes hL b _ _ le_rfl

/-- However the processes were scheduled, in the end each process has the offset of the cells of the processes before it, and
no message is left over. -/
theorem C98_offsets (hL : Layout size np) {s : St} (h : Reachable size np ldims s) (hd : s.done size) :
    (∀ r, 0 ≤ r ∧ r < size → ∀ d, s.off r d = before np ldims r d) ∧ ∀ k, s.chan k = [] :=
  ⟨fun _ hr d => done_off hL h hd hr d, done_chan hL h hd⟩

/-- If the processes at the same place in a direction have the same number of cells there, the patches tile the domain: a cell
is in the domain if and only if it is in the patch of a process, and then it is in only one. -/
theorem C98_tiles (hL : Layout size np) {w : Fin 3 → ℤ → ℤ} (hA : Aligned size np ldims w) {s : St} (h : Reachable size np ldims s)
    (hd : s.done size) (n : I3) :
    ((∀ d, 0 ≤ n d ∧ n d < gdims np ldims s d) ↔ ∃ r, (0 ≤ r ∧ r < size) ∧ InPatch (s.off r) (ldims r) n) ∧
    ∀ r r', 0 ≤ r ∧ r < size → 0 ≤ r' ∧ r' < size → InPatch (s.off r) (ldims r) n → InPatch (s.off r') (ldims r') n → r = r' := by
  have hnn := hA.nonneg hL
  have hin : ∀ r, 0 ≤ r ∧ r < size → (InPatch (s.off r) (ldims r) n ↔
      ∀ d, psum (w d) (rank2proc np r d) ≤ n d ∧ n d < psum (w d) (rank2proc np r d) + w d (rank2proc np r d)) := by
    intro r hr
    refine forall_congr' fun d => ?_
    rw [done_off hL h hd hr, before_aligned hL hA hr, (hA r hr d).1]
  refine ⟨⟨fun hn => ?_, fun ⟨r, hr, hp⟩ d => ?_⟩, fun r r' hr hr' hp hp' => ?_⟩
  · have key : ∀ d, ∃ c, 0 ≤ c ∧ c < np d ∧ psum (w d) c ≤ n d ∧ n d < psum (w d) c + w d c := by
      intro d
      have h1 := (hn d).2
      have hp := hL.pos d
      rw [gdims_aligned hL hA h hd] at h1
      have e : ((np d).toNat : ℤ) = np d := Int.toNat_of_nonneg hp.le
      have := psum_find (w := w d) (hn d).1 (np d).toNat (by rwa [e])
      rwa [e] at this
    choose c h0 h1 h2 using key
    have hg : InGrid np c := fun d => ⟨h0 d, h1 d⟩
    refine ⟨proc2rank np c, proc2rank_range hL hg, ?_⟩
    rw [hin _ (proc2rank_range hL hg), rank2proc_proc2rank hL hg]
    exact h2
  · have := (hin r hr).1 hp d
    have hg := rank2proc_in hL hr d
    rw [gdims_aligned hL hA h hd]
    have h1 := psum_le (w := w d) (a := 0) (b := rank2proc np r d) (N := np d) le_rfl hg.1 (by omega) (hnn d)
    have h2 := psum_le (w := w d) (a := rank2proc np r d + 1) (b := np d) (N := np d) (by omega) (by omega) le_rfl (hnn d)
    rw [psum_succ _ hg.1] at h2
    have h3 : psum (w d) 0 = 0 := by simp [psum]
    omega
  · rw [hin r hr] at hp
    rw [hin r' hr'] at hp'
    exact rank2proc_inj hL hr hr' (funext fun d =>
      psum_unique (hnn d) (rank2proc_in hL hr d) (rank2proc_in hL hr' d) (hp d) (hp' d))

/-- If no process gives its number of cells (`lm` is 0), the setup succeeds exactly if the number of processes is right and
divides the domain, and then: all patches are equal, the domain is the one asked for, and the patch information of each process is
about its own patch. -/
theorem C98_uniform (hL : Layout size np) (h1 : size ≠ 1 ∨ ∀ d, np d = 1) (gd : I3) :
    ((∃ Q, prepare size ⟨gd, fun _ => 0, np⟩ = some Q) ↔ ∀ d, np d ∣ gd d) ∧
    ∀ Q, prepare size ⟨gd, fun _ => 0, np⟩ = some Q → Q.np = np ∧ (∀ d, Q.ldims d * np d = gd d) ∧
      ∀ s, Reachable size np (fun _ => Q.ldims) s → s.done size →
        gdims np (fun _ => Q.ldims) s = gd ∧ ∀ r, 0 ≤ r ∧ r < size →
          (∀ d, s.off r d = rank2proc np r d * Q.ldims d) ∧
          get_global_patch_info np (gdims np (fun _ => Q.ldims) s) r = some ⟨rank2proc np r, Q.ldims, s.off r, r⟩ := by
  have hno : ¬ (size = 1 ∧ np 0 * np 1 * np 2 > 1) := by
    rintro ⟨a, b⟩
    rw [hL.size] at b
    omega
  have hpr : prepare size ⟨gd, fun _ => 0, np⟩ =
      if ∀ d, np d ∣ gd d then some ⟨gd, fun d => gd d / np d, np⟩ else none := by
    unfold prepare
    rw [if_neg hno]
    have hc : (∀ d : Fin 3, (0 : ℤ) = 0 → np d ≠ 0 ∧ (gd d).tmod (np d) = 0) ↔ ∀ d, np d ∣ gd d := by
      refine forall_congr' fun d => ⟨fun h => Int.dvd_of_tmod_eq_zero (h rfl).2, fun h _ => ⟨(hL.pos d).ne', Int.tmod_eq_zero_of_dvd h⟩⟩
    by_cases hdv : ∀ d, np d ∣ gd d
    · rw [if_pos hdv]
      dsimp only
      rw [if_pos (hc.2 hdv), if_pos hL.size]
      simp only [if_true, Option.some.injEq, Prm.mk.injEq, true_and, and_true]
      funext d
      exact Int.tdiv_eq_ediv_of_dvd (hdv d)
    · rw [if_neg hdv]
      dsimp only
      rw [if_neg fun h => hdv (hc.1 h)]
  refine ⟨?_, fun Q hQ => ?_⟩
  · rw [hpr]
    by_cases hdv : ∀ d, np d ∣ gd d
    · simp only [if_pos hdv, hdv, implies_true, iff_true]; exact ⟨_, rfl⟩
    · rw [if_neg hdv]
      simp [hdv]
  · rw [hpr] at hQ
    by_cases hdv : ∀ d, np d ∣ gd d
    · rw [if_pos hdv] at hQ
      simp only [Option.some.injEq] at hQ
      subst hQ
      have hmul : ∀ d, gd d / np d * np d = gd d := fun d => Int.ediv_mul_cancel (hdv d)
      refine ⟨rfl, hmul, fun s hs hd => ?_⟩
      dsimp only at hs ⊢
      have hoff : ∀ r, 0 ≤ r ∧ r < size → ∀ d, s.off r d = rank2proc np r d * (gd d / np d) := by
        intro r hr d
        have hg := rank2proc_in hL hr d
        rw [done_off hL hs hd hr]
        unfold before
        rw [Finset.sum_const, Int.card_Ico, nsmul_eq_mul, sub_zero, Int.natCast_toNat_eq_self.2 hg.1]
      have hgd : gdims np (fun _ d => gd d / np d) s = gd := by
        funext d
        unfold gdims
        dsimp only
        rw [hoff _ (proc2rank_range hL (last_in hL)), rank2proc_proc2rank hL (last_in hL)]
        have := hmul d
        have e : (np d - 1) * (gd d / np d) + gd d / np d = gd d / np d * np d := by ring
        rw [e, this]
      refine ⟨hgd, fun r hr => ⟨hoff r hr, ?_⟩⟩
      rw [hgd]
      unfold get_global_patch_info
      have ht : ∀ d, (gd d).tdiv (np d) = gd d / np d := fun d => Int.tdiv_eq_ediv_of_dvd (hdv d)
      dsimp only
      rw [if_pos fun d => Int.tmod_eq_zero_of_dvd (hdv d)]
      simp only [ht, Option.some.injEq, Info.mk.injEq, true_and, and_true]
      funext d
      exact (hoff r hr d).symm
    · rw [if_neg hdv] at hQ
      simp at hQ

/-- Whatever sizes are given: if the setup goes ahead, the process grid has as many places as there are processes, and each local
size is the one given or, if none was given, what makes the domain full. -/
theorem C98_accepted (size : ℤ) (P Q : Prm) (h : prepare size P = some Q) (h1 : size ≠ 1 ∨ P.np 0 * P.np 1 * P.np 2 = 1) :
    Q.np = P.np ∧ Q.np 0 * Q.np 1 * Q.np 2 = size ∧
      ∀ d, if P.ldims d = 0 then Q.ldims d * Q.np d = P.gdims d else Q.ldims d = P.ldims d := by
  have hno : ¬ (size = 1 ∧ P.np 0 * P.np 1 * P.np 2 > 1) := by
    rintro ⟨a, b⟩
    rcases h1 with h1 | h1
    · exact h1 a
    · omega
  unfold prepare at h
  rw [if_neg hno] at h
  dsimp only at h
  split_ifs at h with h2 h3
  obtain rfl := Option.some.inj h
  refine ⟨rfl, h3, fun d => ?_⟩
  by_cases hd : P.ldims d = 0
  · rw [if_pos hd]
    dsimp only
    rw [if_pos hd]
    have := Int.mul_tdiv_add_tmod (P.gdims d) (P.np d)
    rw [(h2 d hd).2, add_zero, mul_comm] at this
    exact this
  · rw [if_neg hd]
    dsimp only
    rw [if_neg hd]

example : prepare 6 ⟨![12, 4, 5], ![0, 2, 0], ![3, 2, 1]⟩ = some ⟨![12, 4, 5], ![4, 2, 5], ![3, 2, 1]⟩ := by
  simp [prepare, Fin.forall_fin_succ]
  funext d
  match d with
  | 0 => rfl
  | 1 => rfl
  | 2 => rfl

/-- A domain that was written by several processes can be read by one: whatever its parameters, it then is one patch of all cells. -/
theorem C98_one (P : Prm) (h : P.np 0 * P.np 1 * P.np 2 > 1) : prepare 1 P = some ⟨P.gdims, P.gdims, fun _ => 1⟩ := by
  have hc : 1 < P.np 0 * P.np 1 * P.np 2 := h
  simp [prepare, hc, Int.tmod_one]

/-- The neighbour of a process at most one place away: -1 exactly if it would be outside of the processes in a direction that is
not periodic, and otherwise the process at that place, wrapped around in the periodic directions. -/
theorem C98_neighbour (hL : Layout size np) (bc : Fin 3 → Bool) {r : ℤ} (hr : 0 ≤ r ∧ r < size) (dir : I3)
    (hdir : ∀ d, -1 ≤ dir d ∧ dir d ≤ 1) :
    if ∃ d, bc d = false ∧ ¬ (0 ≤ rank2proc np r d + dir d ∧ rank2proc np r d + dir d < np d) then
      get_neighbor_rank_patch np bc (rank2proc np r) dir = (-1, -1)
    else ∃ r', (0 ≤ r' ∧ r' < size) ∧ get_neighbor_rank_patch np bc (rank2proc np r) dir = (r', 0) ∧
      ∀ d, rank2proc np r' d = if bc d then (rank2proc np r d + dir d) % np d else rank2proc np r d + dir d := by
  have hin := rank2proc_in hL hr
  have hw : ∀ d, bc d = true → wrapProc np bc d (rank2proc np r d + dir d) = (rank2proc np r d + dir d) % np d ∧
      0 ≤ (rank2proc np r d + dir d) % np d ∧ (rank2proc np r d + dir d) % np d < np d := by
    intro d hb
    have hp := hL.pos d
    have h1 := hdir d
    have h2 := hin d
    refine ⟨?_, Int.emod_nonneg _ hp.ne', Int.emod_lt_of_pos _ hp⟩
    unfold wrapProc
    rw [if_pos hb]
    dsimp only
    generalize rank2proc np r d = x at *
    generalize dir d = y at *
    generalize np d = N at *
    by_cases hneg : x + y < 0
    · rw [if_pos hneg, if_neg (by omega)]
      rw [← Int.add_emod_right, Int.emod_eq_of_lt (by omega) (by omega)]
    · rw [if_neg hneg]
      by_cases hge : x + y ≥ N
      · rw [if_pos hge]
        rw [← Int.sub_emod_right, Int.emod_eq_of_lt (by omega) (by omega)]
      · rw [if_neg hge, Int.emod_eq_of_lt (by omega) (by omega)]
  have hn : ∀ d, bc d = false → wrapProc np bc d (rank2proc np r d + dir d) = rank2proc np r d + dir d := by
    intro d hb
    unfold wrapProc
    simp [hb]
  split_ifs with hout
  · obtain ⟨d, hb, ho⟩ := hout
    unfold get_neighbor_rank_patch
    dsimp only
    rw [if_pos ⟨d, by rw [hn d hb]; omega⟩]
  · have hg : InGrid np fun d => wrapProc np bc d (rank2proc np r d + dir d) := by
      intro d
      dsimp only
      cases hb : bc d
      · rw [hn d hb]
        by_contra hc
        exact hout ⟨d, hb, hc⟩
      · rw [(hw d hb).1]
        exact (hw d hb).2
    refine ⟨_, proc2rank_range hL hg, ?_, fun d => ?_⟩
    · unfold get_neighbor_rank_patch
      dsimp only
      rw [if_neg]
      rintro ⟨d, hd⟩
      have := hg d
      dsimp only at this
      omega
    · rw [rank2proc_proc2rank hL hg]
      dsimp only
      cases hb : bc d
      · rw [hn d hb]; simp
      · rw [(hw d hb).1]; simp

/-- Neighbours are mutual: if a process finds a neighbour in some direction, that neighbour finds it in the opposite direction. -/
theorem C98_neighbour_mutual (hL : Layout size np) (bc : Fin 3 → Bool) {r r' : ℤ} (hr : 0 ≤ r ∧ r < size) (dir : I3)
    (hdir : ∀ d, -1 ≤ dir d ∧ dir d ≤ 1) (h : get_neighbor_rank_patch np bc (rank2proc np r) dir = (r', 0)) :
    (0 ≤ r' ∧ r' < size) ∧ get_neighbor_rank_patch np bc (rank2proc np r') (fun d => -dir d) = (r, 0) := by
  have h1 := C98_neighbour hL bc hr dir hdir
  have hin := rank2proc_in hL hr
  split_ifs at h1 with hout
  · rw [h1] at h
    simp at h
  · obtain ⟨q, hq, he, hp⟩ := h1
    have : q = r' := by
      rw [h] at he
      simpa using (congrArg Prod.fst he).symm
    subst this
    have h2 := C98_neighbour hL bc hq (fun d => -dir d) (fun d => by have := hdir d; omega)
    split_ifs at h2 with hout'
    · obtain ⟨d, hb, ho⟩ := hout'
      have := hp d
      have := hin d
      simp only [hb] at *
      simp at *
      omega
    · obtain ⟨x, hx, hxe, hxp⟩ := h2
      refine ⟨hq, ?_⟩
      rw [hxe]
      have : x = r := by
        refine rank2proc_inj hL hx hr (funext fun d => ?_)
        rw [hxp d, hp d]
        have h3 := hin d
        cases hb : bc d
        · simp
        · simp only [if_true]
          rw [Int.emod_add_emod, add_neg_cancel_right]
          exact Int.emod_eq_of_lt h3.1 h3.2
      rw [this]

/-- No periodic direction is ever without neighbour: if all directions are periodic, each process has 26 neighbours. -/
theorem C98_neighbour_periodic (hL : Layout size np) {r : ℤ} (hr : 0 ≤ r ∧ r < size) (dir : I3)
    (hdir : ∀ d, -1 ≤ dir d ∧ dir d ≤ 1) :
    ∃ r', (0 ≤ r' ∧ r' < size) ∧ get_neighbor_rank_patch np (fun _ => true) (rank2proc np r) dir = (r', 0) := by
  have := C98_neighbour hL (fun _ => true) hr dir hdir
  rw [if_neg (by simp)] at this
  obtain ⟨r', h, e, _⟩ := this
  exact ⟨r', h, e⟩

/-- two processes, one of one cell and one of three -/
private def exL : ℤ → I3 := fun r => ![if r = 0 then 1 else 3, 4, 4]

private theorem exL_layout : Layout 2 ![2, 1, 1] := ⟨by decide +kernel, by decide +kernel⟩

/-- The patch information is wrong if the patches are not equal: two processes of one and three cells are set up without complaint,
but the information about the second says that it has the cells 2 and 3, while it has the cells 1 to 3. -/
theorem C98_info_violation : ∃ (size : ℤ) (np : I3) (P : ℤ → Prm) (ldims : ℤ → I3), Layout size np ∧
    (∀ r, 0 ≤ r ∧ r < size → ∃ Q, prepare size (P r) = some Q ∧ Q.np = np ∧ Q.ldims = ldims r) ∧
    (∃ s, Reachable size np ldims s ∧ s.done size) ∧
    ∀ s, Reachable size np ldims s → s.done size →
      ∃ r, (0 ≤ r ∧ r < size) ∧ s.off r 0 = 1 ∧ ldims r 0 = 3 ∧
        ∃ i, get_global_patch_info np (gdims np ldims s) r = some i ∧ i.off 0 = 2 ∧ i.ldims 0 = 2 := by
  refine ⟨2, ![2, 1, 1], fun r => ⟨![4, 4, 4], exL r, ![2, 1, 1]⟩, exL, exL_layout, fun r hr => ?_, C98_completes exL_layout true,
    fun s h hd => ?_⟩
  · have : r = 0 ∨ r = 1 := by omega
    rcases this with rfl | rfl <;> exact ⟨⟨![4, 4, 4], _, ![2, 1, 1]⟩, rfl, rfl, by decide +kernel⟩
  · have ho := (C98_offsets exL_layout h hd).1 1 (by decide)
    have hg : gdims ![2, 1, 1] exL s = ![4, 4, 4] := by
      have : ∀ d, before ![2, 1, 1] exL 1 d + exL 1 d = (![4, 4, 4] : I3) d := by decide +kernel
      funext d
      unfold gdims
      have e : proc2rank ![2, 1, 1] (fun d => (![2, 1, 1] : I3) d - 1) = 1 := by decide +kernel
      rw [e, ho d]
      exact this d
    refine ⟨1, by decide, ?_, by decide +kernel, ?_⟩
    · rw [ho 0]; decide +kernel
    · rw [hg]
      exact ⟨_, rfl, by decide +kernel, by decide +kernel⟩

/-- four processes whose sizes do not fit -/
private def exM : ℤ → I3 := fun r =>
  if r = 0 then ![1, 2, 1] else if r = 1 then ![3, 1, 1] else if r = 2 then ![3, 2, 1] else ![1, 3, 1]

private theorem exM_layout : Layout 4 ![2, 2, 1] := ⟨by decide +kernel, by decide +kernel⟩

/-- Sizes that do not fit are not rejected: four processes are set up without complaint, and then one cell of the domain is in no
patch. -/
theorem C98_hole_violation : ∃ (size : ℤ) (np : I3) (P : ℤ → Prm) (ldims : ℤ → I3), Layout size np ∧
    (∀ r, 0 ≤ r ∧ r < size → ∃ Q, prepare size (P r) = some Q ∧ Q.np = np ∧ Q.ldims = ldims r) ∧
    (∃ s, Reachable size np ldims s ∧ s.done size) ∧
    ∀ s, Reachable size np ldims s → s.done size →
      ∃ n : I3, (∀ d, 0 ≤ n d ∧ n d < gdims np ldims s d) ∧ ∀ r, 0 ≤ r ∧ r < size → ¬ InPatch (s.off r) (ldims r) n := by
  refine ⟨4, ![2, 2, 1], fun r => ⟨![4, 4, 1], exM r, ![2, 2, 1]⟩, exM, exM_layout, fun r hr => ?_, C98_completes exM_layout true,
    fun s h hd => ⟨![1, 1, 0], ?_, fun r hr hp => ?_⟩⟩
  · have : r = 0 ∨ r = 1 ∨ r = 2 ∨ r = 3 := by omega
    rcases this with rfl | rfl | rfl | rfl <;> exact ⟨⟨![4, 4, 1], _, ![2, 2, 1]⟩, rfl, rfl, by decide +kernel⟩
  · have ho := (C98_offsets exM_layout h hd).1 3 (by decide)
    have hg : ∀ d, gdims ![2, 2, 1] exM s d = before ![2, 2, 1] exM 3 d + exM 3 d := by
      intro d
      unfold gdims
      have e : proc2rank ![2, 2, 1] (fun d => (![2, 2, 1] : I3) d - 1) = 3 := by decide +kernel
      rw [e, ho d]
    intro d
    rw [hg d]
    revert d
    decide +kernel
  · have ho := (C98_offsets exM_layout h hd).1 r hr
    have hp' : ∀ d, before ![2, 2, 1] exM r d ≤ (![1, 1, 0] : I3) d ∧ (![1, 1, 0] : I3) d < before ![2, 2, 1] exM r d + exM r d :=
      fun d => by have := hp d; rwa [ho d] at this
    have : r = 0 ∨ r = 1 ∨ r = 2 ∨ r = 3 := by omega
    revert hp'
    rcases this with rfl | rfl | rfl | rfl <;> decide +kernel

/-- one process reads what eight wrote -/
example : prepare 1 ⟨![8, 8, 8], ![4, 4, 4], ![2, 2, 2]⟩ = some ⟨![8, 8, 8], ![8, 8, 8], fun _ => 1⟩ := C98_one _ (by decide +kernel)

/-- the hypotheses of `C98_uniform` and of the theorems about neighbours can be met -/
example : Layout 6 ![3, 2, 1] ∧ ((6 : ℤ) ≠ 1 ∨ ∀ d, (![3, 2, 1] : I3) d = 1) ∧ (∀ d, (![3, 2, 1] : I3) d ∣ (![12, 4, 5] : I3) d) ∧
    get_neighbor_rank_patch ![3, 2, 1] ![true, false, false] (rank2proc ![3, 2, 1] 0) ![-1, 1, 0] = (5, 0) ∧
    get_neighbor_rank_patch ![3, 2, 1] ![true, false, false] (rank2proc ![3, 2, 1] 0) ![1, -1, 0] = (-1, -1) :=
  ⟨⟨by decide +kernel, by decide +kernel⟩, Or.inl (by decide), by decide +kernel, by decide +kernel, by decide +kernel⟩

/-- the hypotheses can be met: six processes, patches of different sizes -/
example : Layout 6 ![3, 2, 1] ∧ Aligned 6 ![3, 2, 1] (fun r => ![1 + rank2proc ![3, 2, 1] r 0, 4, 2])
    (fun d c => (![1 + c, 4, 2] : I3) d) ∧ ∃ s, Reachable 6 ![3, 2, 1] (fun r => ![1 + rank2proc ![3, 2, 1] r 0, 4, 2]) s ∧ s.done 6 := by
  have hL : Layout 6 ![3, 2, 1] := ⟨by decide +kernel, by decide +kernel⟩
  refine ⟨hL, fun r hr d => ?_, C98_completes hL true⟩
  have := rank2proc_in hL hr
  match d with
  | 0 => exact ⟨rfl, by have := (this 0).1; show 0 ≤ 1 + _; omega⟩
  | 1 => exact ⟨rfl, show (0 : ℤ) ≤ 4 by decide⟩
  | 2 => exact ⟨rfl, show (0 : ℤ) ≤ 2 by decide⟩

end Psc.Props
