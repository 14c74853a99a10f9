import Verif.Lemmas.DdcSimple

/-!
# C102: ghost cell exchange with one patch per process

`σ r (m, n)` is component `m` of cell `n` of rank `r` before the exchange.
-/

namespace Psc.Props

open Psc Psc.DomainSimple Psc.DdcSimple Domain
open Psc.Ddc (Box PF dirs cells mem_dirs mem_cells isDir_neg neg_neg_dir IsZero IsZero.neg_iff)

variable {K : Type} {c : Cfg} {size : ℤ}

/-- the two uses of the exchange: cells sent and cells received -/
def IsPattern (c : Cfg) (sreg rreg : ℤ → I3 → Box) : Prop :=
  (sreg = inside c ∧ rreg = outside c) ∨ (sreg = outside c ∧ rreg = inside c)

theorem IsPattern.regs (hc : Fits c size) {sreg rreg : ℤ → I3 → Box} (h : IsPattern c sreg rreg) : Regs c size sreg rreg := by
  rcases h with ⟨rfl, rfl⟩ | ⟨rfl, rfl⟩
  · exact regs_fill hc
  · exact regs_add hc

/-- Every receive is met: among the messages its source posts, there is exactly one to this process with its tag, and it has the
length the receive was posted for. -/
theorem C102_received (hc : Fits c size) {sreg rreg : ℤ → I3 → Box} (hp : IsPattern c sreg rreg) (mb me : ℕ) (hm : mb ≤ me)
    (σ : ℤ → PF K) {r : ℤ} (hr : 0 ≤ r ∧ r < size) (q : Recv) (hq : q ∈ recvs rreg c mb me r) :
    q.dst = r ∧ (0 ≤ q.src ∧ q.src < size) ∧
    ((sends sreg c mb me σ q.src).filter fun m => m.dst = r ∧ m.tag = q.tag).map (fun m => (m.src, m.data.length)) =
      [(q.src, q.len)] := by
  have R := hp.regs hc
  obtain ⟨dir, hd, e⟩ := List.mem_filterMap.1 hq
  obtain ⟨⟨s, b⟩, h, rfl⟩ := Option.map_eq_some_iff.1 e
  have hd := mem_dirs.1 hd
  obtain ⟨hs, hb, hsr⟩ := R.back hc.layout hr hd h
  refine ⟨rfl, hs, ?_⟩
  dsimp only
  rw [filter_sends sreg mb me σ s r (isDir_neg hd), hsr]
  simp only [Option.map_some, Option.toList_some]
  rw [List.filter_cons_of_pos (by simp), List.filter_nil, List.map_cons, List.map_nil]
  dsimp only
  rw [length_to_buf mb me hm _ _ (by rw [hb]; exact R.ok r hr dir)]

/-- No message is left over: for every message there is exactly one receive of its destination, from this process, with its tag
and length. -/
theorem C102_sent (hc : Fits c size) {sreg rreg : ℤ → I3 → Box} (hp : IsPattern c sreg rreg) (mb me : ℕ) (hm : mb ≤ me)
    (σ : ℤ → PF K) {r : ℤ} (hr : 0 ≤ r ∧ r < size) (m : Msg K) (hq : m ∈ sends sreg c mb me σ r) :
    m.src = r ∧ (0 ≤ m.dst ∧ m.dst < size) ∧
    ((recvs rreg c mb me m.dst).filter fun q => q.src = r ∧ q.tag = m.tag).map (fun q => (q.dst, q.len)) =
      [(m.dst, m.data.length)] := by
  have R := hp.regs hc
  obtain ⟨dir, hd, e⟩ := List.mem_filterMap.1 hq
  obtain ⟨⟨q, b⟩, h, rfl⟩ := Option.map_eq_some_iff.1 e
  have hd := mem_dirs.1 hd
  obtain ⟨hz, hn, hl, hb⟩ := (sendrecv_some hc.layout hr).1 h
  dsimp only at hn hb ⊢
  obtain ⟨hq, hback⟩ := neighbour_back hc.layout hr hd hn
  have hfit := R.fit q r _ hq (isDir_neg hd) hback
  rw [neg_neg_dir] at hfit
  have hsr : sendrecv rreg c q (fun d => -dir d) = some (r, rreg q fun d => -dir d) := by
    refine (sendrecv_some hc.layout hq).2 ⟨fun h => hz (IsZero.neg_iff.1 h), hback, ?_, rfl⟩
    rw [hfit, shift_len] at hl
    exact hl
  refine ⟨rfl, hq, ?_⟩
  have hf := filter_recvs (c := c) rreg mb me q r (isDir_neg hd)
  rw [neg_neg_dir, hsr] at hf
  simp only [Option.map_some, Option.toList_some] at hf
  rw [List.filter_cons_of_pos (by simp), List.filter_nil] at hf
  rw [hf, List.map_cons, List.map_nil]
  dsimp only
  rw [hb, hfit, length_to_buf mb me hm _ _ (R.ok q hq _)]

/-- Filling ghost cells: a ghost cell that has a neighbour on its side gets the value of that neighbour's own cell at this place;
nothing else changes. -/
theorem C102_fill (hc : Fits c size) (mb me : ℕ) (hm : mb ≤ me) (σ : ℤ → PF K) {r : ℤ} (hr : 0 ≤ r ∧ r < size) :
    ∃ S, fill_ghosts c mb me σ r = some S ∧
      (∀ m n q, mb ≤ m → m < me → Stored c r n → ¬ Interior c r n → neighbour c r (side c r n) = some q →
        Interior c q (renumber c r q (side c r n) n) ∧ S (m, n) = σ q (m, renumber c r q (side c r n) n)) ∧
      ∀ m n, (m < mb ∨ me ≤ m ∨ Interior c r n ∨ ¬ Stored c r n ∨ neighbour c r (side c r n) = none) →
        S (m, n) = σ r (m, n) := by
  refine ⟨_, run_eq hc.layout (regs_fill hc) _ hr mb me hm σ, fun m n q h1 h2 hs hi hn => ⟨renumber_interior hc hr hs hn, ?_⟩,
    fun m n h => ?_⟩
  · refine foldl_one _ _ _ dirs (mem_dirs.2 (side_dir c r n)) (fun dir hdir hne F => ?_) (fun F => ?_) _
    · rw [stepDir_apply hc.layout _ _ _ _ _ hr, if_neg]
      rintro ⟨_, h⟩
      exact hne ((mem_outside hc hr (mem_dirs.1 hdir)).1 (mem_cells.1 h).2).2.symm
    · rw [stepDir_apply hc.layout _ _ _ _ _ hr, if_pos, hn]
      exact ⟨fun h => hi (interior_side.2 h), mem_cells.2 ⟨⟨h1, h2⟩, (mem_outside hc hr (side_dir c r n)).2 ⟨hs, rfl⟩⟩⟩
  · refine foldl_same _ _ dirs (fun dir hdir F => ?_) _
    rw [stepDir_apply hc.layout _ _ _ _ _ hr]
    split_ifs with h'
    · obtain ⟨hz, hm'⟩ := h'
      obtain ⟨h3, h4⟩ := mem_cells.1 hm'
      obtain ⟨h5, rfl⟩ := (mem_outside hc hr (mem_dirs.1 hdir)).1 h4
      rcases h with h | h | h | h | h
      · dsimp only at h3; omega
      · dsimp only at h3; omega
      · exact absurd (interior_side.1 h) hz
      · exact absurd h5 h
      · simp only [h]
    · rfl

/-- Adding ghost cells: each cell of the patch gets the sum of its value and of those of all neighbours' ghost cells at this
place; nothing else changes. -/
theorem C102_add [AddCommMonoid K] (hc : Fits c size) (mb me : ℕ) (hm : mb ≤ me) (σ : ℤ → PF K) {r : ℤ} (hr : 0 ≤ r ∧ r < size) :
    ∃ S, add_ghosts c mb me σ r = some S ∧
      (∀ m n, mb ≤ m → m < me → Interior c r n →
        S (m, n) = σ r (m, n) + (dirs.map fun dir => match neighbour c r dir with
          | none => 0
          | some q =>
            if ¬ IsZero dir ∧ Stored c q (renumber c r q dir n) ∧ side c q (renumber c r q dir n) = (fun d => -dir d) then
              σ q (m, renumber c r q dir n) else 0).sum) ∧
      ∀ m n, (m < mb ∨ me ≤ m ∨ ¬ Interior c r n) → S (m, n) = σ r (m, n) := by
  refine ⟨_, run_eq hc.layout (regs_add hc) _ hr mb me hm σ, fun m n h1 h2 hi => ?_, fun m n h => ?_⟩
  · refine foldl_add _ _ _ dirs (fun dir hdir F => ?_) _
    rw [stepDir_apply hc.layout _ _ _ _ _ hr]
    cases hn : neighbour c r dir with
    | none => simp
    | some q =>
      have := mem_inside (n := n) hc hr (mem_dirs.1 hdir) hn
      dsimp only
      have e : ((m, n) ∈ cells mb me (inside c r dir)) ↔
          (Stored c q (renumber c r q dir n) ∧ side c q (renumber c r q dir n) = fun d => -dir d) := by
        rw [mem_cells]
        exact ⟨fun h => (this.1 h.2).2, fun h => ⟨⟨h1, h2⟩, this.2 ⟨hi, h⟩⟩⟩
      simp only [e]
      split_ifs
      · rfl
      · rw [add_zero]
  · refine foldl_same _ _ dirs (fun dir hdir F => ?_) _
    rw [stepDir_apply hc.layout _ _ _ _ _ hr]
    split_ifs with h'
    · obtain ⟨hz, hm'⟩ := h'
      obtain ⟨h3, h4⟩ := mem_cells.1 hm'
      cases hn : neighbour c r dir with
      | none => rfl
      | some q =>
        obtain ⟨h5, _⟩ := (mem_inside hc hr (mem_dirs.1 hdir) hn).1 h4
        rcases h with h | h | h
        · dsimp only at h3; omega
        · dsimp only at h3; omega
        · exact absurd h5 h
    · rfl

/-- `C102_fill` and `C102_add` speak of the same place in the domain: the cell of the neighbour is at the same distance from the
first cell of the domain, up to multiples of the length of the domain in periodic directions. -/
theorem C102_place (hL : Layout size c.np) {w : Fin 3 → ℤ → ℤ} (hA : Aligned size c.np (fun r d => c.hi r d - c.lo r d) w) {r q : ℤ}
    (hr : 0 ≤ r ∧ r < size) {dir : I3} (hd : ∀ d, -1 ≤ dir d ∧ dir d ≤ 1) (hn : neighbour c r dir = some q) (n : I3) (d : Fin 3) :
    ∃ k : ℤ, before c.np (fun r d => c.hi r d - c.lo r d) q d + (renumber c r q dir n d - c.lo q d) =
        before c.np (fun r d => c.hi r d - c.lo r d) r d + (n d - c.lo r d) + k * ∑ j ∈ Finset.Ico 0 (c.np d), w d j ∧
      (c.bc d = false → k = 0) := by
  obtain ⟨hq, hb⟩ := neighbour_back hL hr hd hn
  rw [before_aligned hL hA hr, before_aligned hL hA hq]
  have hin := rank2proc_in hL hr d
  have hwr := (hA r hr d).1
  have hwq := (hA q hq d).1
  have hp : rank2proc c.np q d = if c.bc d then (rank2proc c.np r d + dir d) % c.np d else rank2proc c.np r d + dir d := by
    have h1 := C98_neighbour hL c.bc hr dir hd
    have h2 := neighbour_some hL hr hd hn
    split_ifs at h1 with hout
    · rw [h1] at h2
      simp at h2
    · obtain ⟨r', hr', e, hp⟩ := h1
      rw [h2] at e
      have : q = r' := by simpa using e
      subst this
      exact hp d
  have hinq := rank2proc_in hL hq d
  have htot : ∑ j ∈ Finset.Ico 0 (c.np d), w d j = psum (w d) (c.np d) := rfl
  rw [htot]
  have h0 : psum (w d) 0 = 0 := by simp [psum]
  have h7 : renumber c r q dir n d = if dir d = 1 then c.lo q d + (n d - c.hi r d)
    else if dir d = -1 then c.hi q d - (c.lo r d - n d) else c.lo q d + (n d - c.lo r d) := rfl
  have hd := hd d
  have hnp := hL.pos d
  generalize renumber c r q dir n d = y at *
  generalize rank2proc c.np r d = a at *
  generalize rank2proc c.np q d = b at *
  have sa := psum_succ (w d) hin.1
  have sb := psum_succ (w d) hinq.1
  have hcase : (b = a + dir d) ∨ (c.bc d = true ∧ dir d = 1 ∧ a + 1 = c.np d ∧ b = 0) ∨
      (c.bc d = true ∧ dir d = -1 ∧ a = 0 ∧ b + 1 = c.np d) := by
    split_ifs at hp with hbc
    · have hdd : dir d = -1 ∨ dir d = 0 ∨ dir d = 1 := by omega
      by_cases h1 : a + dir d < 0
      · have : (a + dir d) % c.np d = a + dir d + c.np d := by
          rw [← Int.add_emod_right, Int.emod_eq_of_lt (by omega) (by omega)]
        exact .inr (.inr ⟨hbc, by omega, by omega, by omega⟩)
      · by_cases h2 : a + dir d < c.np d
        · rw [Int.emod_eq_of_lt (by omega) h2] at hp
          exact .inl hp
        · have : a + dir d = c.np d := by omega
          rw [this, Int.emod_self] at hp
          exact .inr (.inl ⟨hbc, by omega, by omega, hp⟩)
    · exact .inl hp
  have hdd : dir d = -1 ∨ dir d = 0 ∨ dir d = 1 := by omega
  rcases hcase with h | ⟨h1, h2, h3, h4⟩ | ⟨h1, h2, h3, h4⟩
  · refine ⟨0, ?_, fun _ => rfl⟩
    rcases hdd with e | e | e
    · simp [e] at h7
      rw [h7]
      have : b + 1 = a := by omega
      rw [this] at sb
      linarith
    · simp [e] at h7
      rw [h7]
      have : b = a := by omega
      rw [this]
      linarith
    · simp [e] at h7
      rw [h7]
      have : a + 1 = b := by omega
      rw [this] at sa
      linarith
  · refine ⟨-1, ?_, fun h => by rw [h1] at h; simp at h⟩
    simp [h2] at h7
    rw [h7, h4, h0, ← h3, sa]
    linarith
  · refine ⟨1, ?_, fun h => by rw [h1] at h; simp at h⟩
    simp [h2] at h7
    rw [h7, h3, h0, ← h4, sb]
    linarith

/-- Adding ghost cells conserves the total: what the patches contain afterwards is what the patches and those ghost cells that have
a neighbour on their side contained before. -/
theorem C102_total [AddCommMonoid K] (hc : Fits c size) (mb me : ℕ) (σ : ℤ → PF K) (m : ℕ) (h1 : mb ≤ m) (h2 : m < me) :
    ∃ τ : ℤ → PF K, (∀ r, 0 ≤ r ∧ r < size → add_ghosts c mb me σ r = some (τ r)) ∧
      ∑ r ∈ Finset.Ico 0 size, ∑ n ∈ owned c r, τ r (m, n) =
      ∑ r ∈ Finset.Ico 0 size, ∑ n ∈ stored c r,
        if Interior c r n ∨ neighbour c r (side c r n) ≠ none then σ r (m, n) else 0 := by
  classical
  choose τ hτ hv _ using fun r : {r : ℤ // 0 ≤ r ∧ r < size} => C102_add hc mb me (by omega) σ r.2
  refine ⟨fun r => if h : 0 ≤ r ∧ r < size then τ ⟨r, h⟩ else σ r, fun r hr => by dsimp only; rw [dif_pos hr]; exact hτ ⟨r, hr⟩, ?_⟩
  have mo : ∀ r n, n ∈ owned c r ↔ Interior c r n := fun r n => by simp [owned, Interior]
  have ms : ∀ r n, n ∈ stored c r ↔ Stored c r n := fun r n => by simp [stored, Stored]
  have hsub : ∀ r, owned c r = (stored c r).filter (Interior c r) := by
    intro r
    ext n
    rw [Finset.mem_filter, mo, ms]
    refine ⟨fun h => ⟨fun d => ?_, h⟩, fun h => h.2⟩
    have a := h d; have b := hc.ibn d
    omega
  let P : ℤ → I3 → I3 → Prop := fun r n dir => ∃ q, neighbour c r dir = some q ∧ ¬ IsZero dir ∧ Stored c q (renumber c r q dir n) ∧
    side c q (renumber c r q dir n) = fun d => -dir d
  let g : ℤ → I3 → I3 → K := fun r n dir => σ ((neighbour c r dir).getD 0) (m, renumber c r ((neighbour c r dir).getD 0) dir n)
  have e1 : ∀ r ∈ Finset.Ico 0 size, ∑ n ∈ owned c r, (if h : 0 ≤ r ∧ r < size then τ ⟨r, h⟩ else σ r) (m, n) =
      ∑ n ∈ owned c r, σ r (m, n) + ∑ nd ∈ owned c r ×ˢ dirs.toFinset, if P r nd.1 nd.2 then g r nd.1 nd.2 else 0 := by
    intro r hr
    rw [Finset.mem_Ico] at hr
    rw [Finset.sum_product, ← Finset.sum_add_distrib]
    refine Finset.sum_congr rfl fun n hn => ?_
    rw [dif_pos hr, hv ⟨r, hr⟩ m n h1 h2 ((mo r n).1 hn), List.sum_toFinset _ Ddc.nodup_dirs]
    congr 3
    funext dir
    dsimp only [P, g]
    cases hq : neighbour c r dir with
    | none => simp
    | some q => simp
  have e2 : ∀ r ∈ Finset.Ico 0 size, (∑ n ∈ stored c r, if Interior c r n ∨ neighbour c r (side c r n) ≠ none then σ r (m, n) else 0) =
      ∑ n ∈ owned c r, σ r (m, n) +
        ∑ n ∈ stored c r, if ¬ Interior c r n ∧ neighbour c r (side c r n) ≠ none then σ r (m, n) else 0 := by
    intro r hr
    rw [hsub r, Finset.sum_filter, ← Finset.sum_add_distrib]
    refine Finset.sum_congr rfl fun n hn => ?_
    by_cases hi : Interior c r n <;> simp [hi]
  rw [Finset.sum_congr rfl e1, Finset.sum_congr rfl e2, Finset.sum_add_distrib, Finset.sum_add_distrib]
  congr 1
  rw [Finset.sum_sigma', Finset.sum_sigma', ← Finset.sum_filter, ← Finset.sum_filter]
  refine Finset.sum_nbij'
    (fun x => (⟨(neighbour c x.1 x.2.2).getD 0, renumber c x.1 ((neighbour c x.1 x.2.2).getD 0) x.2.2 x.2.1⟩ : (_ : ℤ) × I3))
    (fun y => ⟨(neighbour c y.1 (side c y.1 y.2)).getD 0,
      (renumber c y.1 ((neighbour c y.1 (side c y.1 y.2)).getD 0) (side c y.1 y.2) y.2, fun d => -side c y.1 y.2 d)⟩) ?_ ?_ ?_ ?_ ?_
  · rintro ⟨r, n, dir⟩ h
    simp only [Finset.mem_filter, Finset.mem_sigma, Finset.mem_Ico, Finset.mem_product, List.mem_toFinset, mo, ms, mem_dirs] at h ⊢
    obtain ⟨⟨hr, hi, hd⟩, q, hq, hz, hs, hside⟩ := h
    obtain ⟨hq', hb⟩ := neighbour_back hc.layout hr hd hq
    simp only [hq, Option.getD_some]
    refine ⟨⟨hq', hs⟩, fun h => hz (IsZero.neg_iff.1 (hside ▸ interior_side.1 h)), ?_⟩
    rw [hside, hb]
    simp
  · rintro ⟨q, n⟩ h
    simp only [Finset.mem_filter, Finset.mem_sigma, Finset.mem_Ico, Finset.mem_product, List.mem_toFinset, mo, ms, mem_dirs] at h ⊢
    obtain ⟨⟨hq, hs⟩, hi, hn⟩ := h
    obtain ⟨r, hr⟩ := Option.ne_none_iff_exists'.1 hn
    have hd := side_dir c q n
    obtain ⟨hr', hb⟩ := neighbour_back hc.layout hq hd hr
    simp only [hr, Option.getD_some]
    refine ⟨⟨hr', renumber_interior hc hq hs hr, isDir_neg hd⟩, q, hb, fun h => hi (interior_side.2 (IsZero.neg_iff.1 h)), ?_, ?_⟩
    · rw [renumber_back hd]; exact hs
    · rw [renumber_back hd]; funext d; simp
  · rintro ⟨r, n, dir⟩ h
    simp only [Finset.mem_filter, Finset.mem_sigma, Finset.mem_Ico, Finset.mem_product, List.mem_toFinset, mo, ms, mem_dirs] at h ⊢
    obtain ⟨⟨hr, hi, hd⟩, q, hq, hz, hs, hside⟩ := h
    obtain ⟨hq', hb⟩ := neighbour_back hc.layout hr hd hq
    simp only [hq, Option.getD_some, hside, hb, renumber_back hd, neg_neg]
  · rintro ⟨q, n⟩ h
    simp only [Finset.mem_filter, Finset.mem_sigma, Finset.mem_Ico, Finset.mem_product, List.mem_toFinset, mo, ms, mem_dirs] at h ⊢
    obtain ⟨⟨hq, hs⟩, hi, hn⟩ := h
    obtain ⟨r, hr⟩ := Option.ne_none_iff_exists'.1 hn
    have hd := side_dir c q n
    obtain ⟨hr', hb⟩ := neighbour_back hc.layout hq hd hr
    simp only [hr, Option.getD_some, hb, renumber_back hd]
  · rintro ⟨r, n, dir⟩ h
    rfl

/-- the hypotheses of the theorems above: two by two processes of different sizes, one direction periodic, indices of one process
starting at its offset -/
def exDS : Cfg where
  np := ![2, 2, 1]
  bc := ![true, false, true]
  lo := fun r => if r % 2 = 0 then ![0, 0, 0] else ![3, 0, 0]
  hi := fun r => if r % 2 = 0 then ![3, if r < 2 then 4 else 2, 1] else ![5, if r < 2 then 4 else 2, 1]
  ibn := ![2, 1, 0]

theorem exDS_fits : Fits exDS 4 := by
  refine ⟨⟨by decide, by decide⟩, by decide, fun r hr => ?_, fun r r' d hr hr' => ?_⟩
  · have : r = 0 ∨ r = 1 ∨ r = 2 ∨ r = 3 := by omega
    rcases this with rfl | rfl | rfl | rfl <;> decide
  · have h1 : r = 0 ∨ r = 1 ∨ r = 2 ∨ r = 3 := by omega
    have h2 : r' = 0 ∨ r' = 1 ∨ r' = 2 ∨ r' = 3 := by omega
    revert d
    rcases h1 with rfl | rfl | rfl | rfl <;> rcases h2 with rfl | rfl | rfl | rfl <;> decide

example : IsPattern exDS (inside exDS) (outside exDS) := .inl ⟨rfl, rfl⟩
example : (recvs (outside exDS) exDS 0 2 0).map (fun q => (q.src, q.len)) = [(1, 16), (1, 16), (3, 4), (2, 6), (3, 4)] := by
  decide +kernel
example : Stored exDS 0 ![-1, 4, 0] ∧ ¬ Interior exDS 0 ![-1, 4, 0] ∧ neighbour exDS 0 (side exDS 0 ![-1, 4, 0]) = some 3 ∧
    renumber exDS 0 3 (side exDS 0 ![-1, 4, 0]) ![-1, 4, 0] = ![4, 0, 0] := by decide +kernel
example : neighbour exDS 0 (side exDS 0 ![1, -1, 0]) = none := by decide +kernel
example : (fill_ghosts exDS 0 1 (fun r x => 100 * r + 10 * x.2 0 + x.2 1) 0).map (fun S => S (0, ![-1, 4, 0])) = some 340 := by
  decide +kernel
example : (add_ghosts exDS 0 1 (fun r _ => 10 ^ r.toNat) 0).map (fun S => (S (0, ![0, 3, 0]), S (0, ![2, 3, 0]), S (0, ![1, 1, 0]))) =
    some ((1111 : ℕ), 1111, 21) := by decide +kernel

/-- processes of one cell with two ghost points -/
def exWide : Cfg where
  np := ![2, 1, 1]
  bc := fun _ => true
  lo := fun _ => ![0, 0, 0]
  hi := fun _ => ![1, 1, 1]
  ibn := ![2, 0, 0]

/-- With more ghost points than cells, what the setup accepts, filling ghost cells does not give them the values of the cells they
stand for: the second ghost cell of rank 0, which is at the place of its own only cell, gets a ghost value of rank 1. -/
theorem C102_wide_violation : ∃ (c : Cfg) (size : ℤ) (σ : ℤ → PF ℤ), Layout size c.np ∧ (∀ d, 0 ≤ c.ibn d) ∧
    (∀ r d, c.lo r d < c.hi r d) ∧ (∀ r r' d, c.hi r d - c.lo r d = c.hi r' d - c.lo r' d) ∧ (∀ d, c.bc d = true) ∧
    ∃ S n, fill_ghosts c 0 1 σ 0 = some S ∧ Stored c 0 ![2, 0, 0] ∧ Interior c 0 n ∧ ![2, 0, 0] = n + ![c.np 0 * (c.hi 0 0 - c.lo 0 0), 0, 0] ∧
      ¬ Interior c 1 (n + ![1, 0, 0]) ∧ S (0, ![2, 0, 0]) = σ 1 (0, n + ![1, 0, 0]) ∧ S (0, ![2, 0, 0]) ≠ σ 0 (0, n) := by
  let σ : ℤ → PF ℤ := fun r x => if x.2 0 = 0 then 10 + r else 0
  have hs : (fill_ghosts exWide 0 1 σ 0).map (fun S => S (0, ![2, 0, 0])) = some 0 := by decide +kernel
  refine ⟨exWide, 2, σ, ⟨by decide, by decide⟩, by decide, fun _ => (by decide : ∀ d, exWide.lo 0 d < exWide.hi 0 d), fun _ _ _ => rfl, fun _ => rfl, ?_⟩
  obtain ⟨S, hS, h0⟩ := Option.map_eq_some_iff.1 hs
  refine ⟨S, ![0, 0, 0], hS, by decide, by decide, by decide, by decide, ?_, ?_⟩
  · rw [h0]; decide
  · rw [h0]; decide

/-- Nothing checks that neighbours have matching sizes: two processes of different sizes next to each other post receives that do
not fit the messages. -/
theorem C102_uneven_violation : ∃ (c : Cfg) (size : ℤ), Layout size c.np ∧ (∀ d, 0 ≤ c.ibn d) ∧
    (∀ r, 0 ≤ r ∧ r < size → ∀ d, c.ibn d ≤ c.hi r d - c.lo r d) ∧ fill_ghosts c 0 1 (fun _ _ => (0 : ℤ)) 0 = none := by
  refine ⟨⟨![2, 1, 1], fun _ => false, fun _ => ![0, 0, 0], fun r => ![1, 1 + r, 1], ![1, 0, 0]⟩, 2, ⟨by decide, by decide⟩, by decide,
    fun r hr => ?_, ?_⟩
  · have : r = 0 ∨ r = 1 := by omega
    rcases this with rfl | rfl <;> decide
  · have : (fill_ghosts ⟨![2, 1, 1], fun _ => false, fun _ => ![0, 0, 0], fun r => ![1, 1 + r, 1], ![1, 0, 0]⟩ 0 1
        (fun _ _ => (0 : ℤ)) 0).isNone = true := by decide +kernel
    exact Option.isNone_iff_eq_none.1 this

end Psc.Props
