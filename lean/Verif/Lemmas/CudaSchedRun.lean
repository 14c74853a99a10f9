import Verif.Lemmas.CudaSchedYz

/-!
# Lemmas for C70: races, the cache of the fields, and whole launches
-/

namespace Psc.CudaSched

open Cuda

variable {K : Type*}

/-! ## the cache of the fields -/

theorem divmod_lin {A ti : ℕ} : ti / A * A + ti % A = ti := Nat.div_add_mod' ti A

/-- the address of cell `ti` in the cache -/
theorem fcIndexYz_eq (bs ci0 : N3) (m ti : ℕ) (h : ti < (bs 1 + 4) * (bs 2 + 4)) :
    fcIndexYz bs ci0 m 0 (((ti % (bs 1 + 4) : ℕ) - 2 : ℤ) + ci0 1) (((ti / (bs 1 + 4) % (bs 2 + 4) : ℕ) - 2 : ℤ) + ci0 2) =
      ((m * ((bs 1 + 4) * (bs 2 + 4)) + ti : ℕ) : ℤ) := by
  have h1 : ti / (bs 1 + 4) % (bs 2 + 4) = ti / (bs 1 + 4) := Nat.mod_eq_of_lt (Nat.div_lt_of_lt_mul h)
  have h2 := Nat.div_add_mod' ti (bs 1 + 4)
  rw [h1]
  generalize ti / (bs 1 + 4) = z at h2
  generalize ti % (bs 1 + 4) = y at h2
  subst h2
  unfold fcIndexYz
  push_cast
  ring

/-- the address of cell `ti` in the cache -/
theorem fcIndex_eq (bs ci0 : N3) (m ti : ℕ) (h : ti < (bs 0 + 4) * (bs 1 + 4) * (bs 2 + 4)) :
    fcIndex bs ci0 m (((ti % (bs 0 + 4) : ℕ) - 2 : ℤ) + ci0 0) (((ti / (bs 0 + 4) % (bs 1 + 4) : ℕ) - 2 : ℤ) + ci0 1)
      (((ti / (bs 0 + 4) / (bs 1 + 4) % (bs 2 + 4) : ℕ) - 2 : ℤ) + ci0 2) =
      ((m * ((bs 0 + 4) * (bs 1 + 4) * (bs 2 + 4)) + ti : ℕ) : ℤ) := by
  have h1 : ti / (bs 0 + 4) / (bs 1 + 4) % (bs 2 + 4) = ti / (bs 0 + 4) / (bs 1 + 4) := by
    refine Nat.mod_eq_of_lt ?_
    rw [Nat.div_div_eq_div_mul]
    exact Nat.div_lt_of_lt_mul h
  have h2 := Nat.div_add_mod' ti (bs 0 + 4)
  have h3 := Nat.div_add_mod' (ti / (bs 0 + 4)) (bs 1 + 4)
  rw [h1]
  generalize ti / (bs 0 + 4) / (bs 1 + 4) = z at h3
  generalize ti / (bs 0 + 4) % (bs 1 + 4) = y at h3
  generalize ti / (bs 0 + 4) = w at h2 h3
  subst h3
  generalize ti % (bs 0 + 4) = x at h2
  subst h2
  unfold fcIndex
  push_cast
  ring

theorem cell_unique {n m m' ti ti' : ℕ} (h : ti < n) (h' : ti' < n) (e : m * n + ti = m' * n + ti') : m = m' ∧ ti = ti' := by
  have := pair_inj (n := n) (a := m) (a' := m') (r := ti) (r' := ti') (by omega) (by omega) (by omega) (by omega) (by exact_mod_cast e)
  omega

variable [AddCommMonoid K]

theorem fc_last (i : ℕ) (a : ℤ) (v : K) (tr : List (Ev K)) (s : State K)
    (hu : ∀ x ∈ tr, x.blk = i → ∀ v', x.op = .put a v' → v' = v)
    (h : s.fc (i, a) = v ∨ ∃ x ∈ tr, x.blk = i ∧ ∃ v', x.op = .put a v') : (execAll tr s).fc (i, a) = v := by
  induction tr generalizing s with
  | nil =>
    rcases h with h | ⟨x, hx, _⟩
    · exact h
    · simp at hx
  | cons e tr ih =>
    rw [execAll_cons]
    refine ih _ (fun x hx => hu x (List.mem_cons_of_mem _ hx)) ?_
    by_cases he : e.blk = i ∧ ∃ v', e.op = .put a v'
    · left
      obtain ⟨hb, v', ho⟩ := he
      have := hu e List.mem_cons_self hb v' ho
      subst this hb
      simp [Ev.exec, ho]
    · rcases h with h | ⟨x, hx, hxi, v', hv⟩
      · left
        have : (e.exec s).fc (i, a) = s.fc (i, a) := by
          unfold Ev.exec
          split
          · rename_i a' v' ho
            dsimp only
            refine Function.update_of_ne ?_ _ _
            intro hc
            rw [Prod.mk.injEq] at hc
            refine he ⟨hc.1.symm, v', ?_⟩
            rw [ho, hc.2]
          all_goals rfl
        rw [this, h]
      · rcases List.mem_cons.1 hx with rfl | hx
        · exact absurd ⟨hxi, v', hv⟩ he
        · exact .inr ⟨x, hx, hxi, v', hv⟩

/-- when a thread has passed `__syncthreads()`, the cache has what was put there -/
theorem cache_final {prog : ℕ → ℕ → List (Ev K)} {tr pre post : List (Ev K)} {e : Ev K} (h : Schedule prog tr)
    (htr : tr = pre ++ e :: post) (hph : 1 ≤ e.phase) {a : ℤ} {v : K} {t : ℕ} (hput : ⟨e.blk, t, 0, .put a v⟩ ∈ prog e.blk t)
    (hu : ∀ t', ∀ x ∈ prog e.blk t', ∀ v', x.op = .put a v' → v' = v) (s : State K) : (execAll pre s).fc (e.blk, a) = v := by
  have hx : (⟨e.blk, t, 0, .put a v⟩ : Ev K) ∈ pre := by
    have h1 : (⟨e.blk, t, 0, .put a v⟩ : Ev K) ∈ tr := by
      rw [← h.order, List.mem_filter] at hput
      exact hput.1
    rw [htr, List.mem_append, List.mem_cons] at h1
    rcases h1 with h1 | h1 | h1
    · exact h1
    · rw [← h1] at hph
      simp at hph
    · have h2 := h.sync e.blk
      rw [htr, List.filter_append, List.filter_cons_of_pos (by simp), List.pairwise_append, List.pairwise_cons] at h2
      have h3 := h2.2.1.1 ⟨e.blk, t, 0, .put a v⟩ (by rw [List.mem_filter]; exact ⟨h1, by simp⟩)
      simp only at h3
      omega
  refine fc_last e.blk a v pre s ?_ (.inr ⟨_, hx, rfl, _, rfl⟩)
  intro x hxp hb v' hv
  have h1 : x ∈ prog e.blk x.thr := by
    rw [← h.order, List.mem_filter, htr]
    exact ⟨List.mem_append_left _ hxp, by simp [hb]⟩
  exact hu _ x h1 v' hv

/-! ## races -/

/-- what the threads of `launchProg` do -/
theorem mem_launchProg {ops : Block → ℕ → List (ℕ × Op K)} {T : ℕ} {l : Launch} {i t : ℕ} {e : Ev K} :
    e ∈ launchProg ops T l i t ↔ t < T ∧ e.blk = i ∧ e.thr = t ∧ ∃ b ∈ (l[i]?).getD [], (e.phase, e.op) ∈ ops b t := by
  unfold launchProg
  split_ifs with h
  · simp only [List.mem_flatMap, List.mem_map, h, true_and]
    constructor
    · rintro ⟨b, hb, o, ho, rfl⟩
      exact ⟨rfl, rfl, b, hb, ho⟩
    · rintro ⟨rfl, rfl, b, hb, ho⟩
      exact ⟨b, hb, _, ho, rfl⟩
  · simp [h]

/-- the tiles of two blocks have no value in common -/
def Apart (bs : N3) (b b' : Block) : Prop :=
  b.p ≠ b'.p ∨ (b.ci0 1 + bs 1 + 3 ≤ b'.ci0 1 ∨ b'.ci0 1 + bs 1 + 3 ≤ b.ci0 1) ∨
    (b.ci0 2 + bs 2 + 3 ≤ b'.ci0 2 ∨ b'.ci0 2 + bs 2 + 3 ≤ b.ci0 2)

theorem strided_owner {t k n i : ℕ} (hk : 0 < k) (ht : t < k) (h : i ∈ strided t n k) : i % k = t ∧ i < n := by
  obtain ⟨h1, h2, h3⟩ := (strided_mem hk _ _ _).1 h
  refine ⟨?_, h2⟩
  have : i = (i - t) + t := by omega
  rw [this, Nat.add_mod, h3, Nat.zero_add, Nat.mod_mod, Nat.mod_eq_of_lt ht]

/-- what a thread accesses in which phase -/
theorem accessYz {bs : N3} {d_off : List ℕ} {T : ℕ} {F : ℕ → ℕ → ℤ → ℤ → ℤ → K} {dep : Block → ℕ → List (Add K)} {l : Launch}
    {i t : ℕ} {e : Ev K} (he : e ∈ launchProg (opsYz bs d_off T F dep) T l i t) {a : Addr} {m : Mode}
    (ha : e.access = some (a, m)) :
    (∃ c : ℕ, a = .fc i c ∧ c % ((bs 1 + 4) * (bs 2 + 4)) % T = t) ∨
    (∃ c : ℕ, a = .sh i c ∧ m = .write ∧ e.phase = 0 ∧ c % T = t) ∨
    (∃ c, a = .sh i c ∧ m = .atomic ∧ e.phase = 1) ∨
    (∃ c, a = .sh i c ∧ m = .read ∧ e.phase = 2) ∨
    (∃ b ∈ (l[i]?).getD [], ∃ (j : ℕ) (n : Fin 3), j < stride bs 1 * stride bs 2 ∧ a = .gl (flushAt bs b j n).2 ∧ j % (3 * T) = t) := by
  obtain ⟨ht, rfl, rfl, b, hb, ho⟩ := mem_launchProg.1 he
  obtain ⟨i, t, ph, op⟩ := e
  simp only [opsYz, List.mem_append, List.mem_map, Prod.mk.injEq, exists_eq_right_right] at ho ht hb ha ⊢
  rcases ho with (⟨ho, rfl⟩ | ⟨ho, rfl⟩) | ⟨ho, rfl⟩
  · rcases ho with ho | ho
    · simp only [fcLoadYz, List.mem_flatMap, List.mem_map, List.mem_range] at ho
      obtain ⟨ti, hti, m', hm, rfl⟩ := ho
      obtain ⟨h1, h2⟩ := strided_owner (by omega) ht hti
      simp only [Ev.access, Option.some.injEq, Prod.mk.injEq] at ha
      left
      refine ⟨m' * ((bs 1 + 4) * (bs 2 + 4)) + ti, ?_, ?_⟩
      · rw [← ha.1, fcIndexYz_eq bs b.ci0 m' ti h2]
      · rw [Nat.mul_add_mod', Nat.mod_eq_of_lt h2, h1]
    · simp only [shZero, List.mem_map] at ho
      obtain ⟨c, hc, rfl⟩ := ho
      simp only [Ev.access, Option.some.injEq, Prod.mk.injEq] at ha
      right; left
      exact ⟨c, ha.1.symm, ha.2.symm, rfl, (strided_owner (by omega) ht hc).1⟩
  · simp only [shAdd, List.mem_map] at ho
    obtain ⟨x, hx, rfl⟩ := ho
    simp only [Ev.access, Option.some.injEq, Prod.mk.injEq] at ha
    right; right; left
    exact ⟨_, ha.1.symm, ha.2.symm, rfl⟩
  · simp only [shFlush, List.mem_flatMap, List.mem_append, List.mem_cons, List.mem_map, List.not_mem_nil, or_false] at ho
    obtain ⟨j, hj, n, -, ho⟩ := ho
    obtain ⟨h1, h2⟩ := strided_owner (by omega) (show t < 3 * T by omega) hj
    rcases ho with (rfl | ⟨wid, -, rfl⟩) | rfl | rfl
    · simp [Ev.access] at ha
    · simp only [Ev.access, Option.some.injEq, Prod.mk.injEq] at ha
      right; right; right; left
      exact ⟨_, ha.1.symm, ha.2.symm, rfl⟩
    · simp only [Ev.access, Option.some.injEq, Prod.mk.injEq] at ha
      right; right; right; right
      exact ⟨b, hb, j, n, h2, ha.1.symm, h1⟩
    · simp only [Ev.access, Option.some.injEq, Prod.mk.injEq] at ha
      right; right; right; right
      exact ⟨b, hb, j, n, h2, ha.1.symm, h1⟩

/-- the values of a tile -/
theorem flushAt_eq {bs : N3} {b b' : Block} {j j' : ℕ} {n n' : Fin 3} (hj : j < stride bs 1 * stride bs 2)
    (hj' : j' < stride bs 1 * stride bs 2) (h : (flushAt bs b j n).2 = (flushAt bs b' j' n').2) :
    (b = b' → j = j') ∧ ¬ Apart bs b b' := by
  have hs1 : 0 < stride bs 1 := by simp [stride]
  have hr : ∀ i : ℕ, i - i / stride bs 1 * stride bs 1 = i % stride bs 1 := by
    intro i
    have := Nat.div_add_mod' i (stride bs 1)
    omega
  simp only [flushAt, Loc.mk.injEq, hr] at h
  obtain ⟨h1, -, -, h2, h3⟩ := h
  have a1 := Nat.mod_lt j hs1
  have a2 := Nat.mod_lt j' hs1
  have a3 : j / stride bs 1 < stride bs 2 := Nat.div_lt_of_lt_mul hj
  have a4 : j' / stride bs 1 < stride bs 2 := Nat.div_lt_of_lt_mul hj'
  have s1 : stride bs 1 = bs 1 + 1 + 2 := rfl
  have s2 : stride bs 2 = bs 2 + 1 + 2 := rfl
  constructor
  · rintro rfl
    rw [← Nat.div_add_mod' j (stride bs 1), ← Nat.div_add_mod' j' (stride bs 1)]
    have e1 : j % stride bs 1 = j' % stride bs 1 := by
      generalize j % stride bs 1 = x at *
      generalize j' % stride bs 1 = x' at *
      omega
    have e2 : j / stride bs 1 = j' / stride bs 1 := by
      generalize j / stride bs 1 = x at *
      generalize j' / stride bs 1 = x' at *
      omega
    rw [e1, e2]
  · generalize j % stride bs 1 = x at *
    generalize j' % stride bs 1 = x' at *
    generalize j / stride bs 1 = y at *
    generalize j' / stride bs 1 = y' at *
    unfold Apart
    omega

theorem raceYz {bs : N3} {d_off : List ℕ} {T : ℕ} {F : ℕ → ℕ → ℤ → ℤ → ℤ → K} {dep : Block → ℕ → List (Add K)} {l : Launch}
    (hl : ∀ x ∈ l, x.length ≤ 1)
    (hd : ∀ i i' : ℕ, i ≠ i' → ∀ b ∈ (l[i]?).getD [], ∀ b' ∈ (l[i']?).getD [], Apart bs b b') :
    RaceFree (launchProg (opsYz bs d_off T F dep) T l) := by
  rintro i t i' t' hne e he e' he' hp ⟨a, m, m', ha, ha', hrd, hat⟩
  have h1 : ∀ i : ℕ, ((l[i]?).getD []).length ≤ 1 := by
    intro i
    cases h : l[i]? with
    | none => simp
    | some x => exact hl x (List.mem_of_getElem? h)
  rcases accessYz he ha with ⟨c, rfl, h2⟩ | ⟨c, rfl, rfl, h2, h3⟩ | ⟨c, rfl, rfl, h2⟩ | ⟨c, rfl, rfl, h2⟩ | ⟨b, hb, j, n, hj, rfl, h2⟩ <;>
  rcases accessYz he' ha' with ⟨c', hc, h2'⟩ | ⟨c', hc, rfl, h2', h3'⟩ | ⟨c', hc, rfl, h2'⟩ | ⟨c', hc, rfl, h2'⟩ |
    ⟨b', hb', j', n', hj', hc, h2'⟩ <;>
  simp only [reduceCtorEq, Addr.fc.injEq, Addr.sh.injEq, Addr.gl.injEq] at hc
  · obtain ⟨rfl, hc⟩ := hc
    have : c = c' := by omega
    subst this
    exact hne (by rw [← h2, ← h2'])
  · obtain ⟨rfl, hc⟩ := hc
    have : c = c' := by omega
    subst this
    exact hne (by rw [← h3, ← h3'])
  · omega
  · omega
  · omega
  · exact hat ⟨rfl, rfl⟩
  · omega
  · omega
  · omega
  · exact hrd ⟨rfl, rfl⟩
  · obtain ⟨q1, q2⟩ := flushAt_eq hj hj' hc
    by_cases hi : i = i'
    · subst hi
      have : b = b' := by
        have := h1 i
        generalize (l[i]?).getD [] = x at hb hb' this
        match x, this with
        | [], _ => simp at hb
        | [y], _ =>
          rw [List.mem_singleton] at hb hb'
          rw [hb, hb']
      have := q1 this
      subst this
      exact hne (by rw [← h2, ← h2'])
    · exact q2 (hd i i' hi b hb b' hb')

theorem accessXyz {bs : N3} {d_off : List ℕ} {T : ℕ} {F : ℕ → ℕ → ℤ → ℤ → ℤ → K} {dep : Block → ℕ → List (Add K)} {l : Launch}
    {i t : ℕ} {e : Ev K} (he : e ∈ launchProg (opsXyz bs d_off T F dep) T l i t) {a : Addr} {m : Mode}
    (ha : e.access = some (a, m)) :
    (∃ c : ℕ, a = .fc i c ∧ c % ((bs 0 + 4) * (bs 1 + 4) * (bs 2 + 4)) % T = t) ∨ (∃ g, a = .gl g ∧ m = .atomic) := by
  obtain ⟨ht, rfl, rfl, b, hb, ho⟩ := mem_launchProg.1 he
  obtain ⟨i, t, ph, op⟩ := e
  simp only [opsXyz, List.mem_append, List.mem_map, Prod.mk.injEq, exists_eq_right_right] at ho ht hb ha ⊢
  rcases ho with ⟨ho, rfl⟩ | ⟨x, hx, rfl, rfl⟩
  · simp only [fcLoad, List.mem_flatMap, List.mem_map, List.mem_range] at ho
    obtain ⟨ti, hti, m', hm, rfl⟩ := ho
    obtain ⟨h1, h2⟩ := strided_owner (by omega) ht hti
    simp only [Ev.access, Option.some.injEq, Prod.mk.injEq] at ha
    left
    refine ⟨m' * ((bs 0 + 4) * (bs 1 + 4) * (bs 2 + 4)) + ti, ?_, ?_⟩
    · rw [← ha.1, fcIndex_eq bs b.ci0 m' ti h2]
    · rw [Nat.mul_add_mod', Nat.mod_eq_of_lt h2, h1]
  · simp only [Ev.access, Option.some.injEq, Prod.mk.injEq] at ha
    exact .inr ⟨_, ha.1.symm, ha.2.symm⟩

theorem raceXyz {bs : N3} {d_off : List ℕ} {T : ℕ} {F : ℕ → ℕ → ℤ → ℤ → ℤ → K} {dep : Block → ℕ → List (Add K)} {l : Launch} :
    RaceFree (launchProg (opsXyz bs d_off T F dep) T l) := by
  rintro i t i' t' hne e he e' he' hp ⟨a, m, m', ha, ha', hrd, hat⟩
  rcases accessXyz he ha with ⟨c, rfl, h2⟩ | ⟨g, rfl, rfl⟩ <;>
  rcases accessXyz he' ha' with ⟨c', hc, h2'⟩ | ⟨g', hc, rfl⟩ <;>
  simp only [reduceCtorEq, Addr.fc.injEq, Addr.gl.injEq] at hc
  · obtain ⟨rfl, hc⟩ := hc
    have : c = c' := by omega
    subst this
    exact hne (by rw [← h2, ← h2'])
  · exact hat ⟨rfl, rfl⟩

/-! ## a launch -/

theorem launch_gl {ops : Block → ℕ → List (ℕ × Op K)} {parts : ℕ → Block → ℕ → List (Op K)} {T : ℕ} {l : Launch}
    (ho : ∀ b t, ops b t = (List.range 3).flatMap fun ph => (parts ph b t).map (ph, ·))
    (hl : ∀ x ∈ l, x.length ≤ 1) (hr : RaceFree (launchProg ops T l)) {c : Block → Loc → K}
    (hb : ∀ x ∈ l, ∀ b ∈ x, ∀ i (s : State K) g,
      (execAll ((List.range 3).flatMap fun ph => phaseOf T (fun ph _ t => parts ph b t) i ph) s).gl g = s.gl g + c b g)
    {tr : List (Ev K)} (hs : Schedule (launchProg ops T l) tr) (s : State K) (g : Loc) :
    (execAll tr s).gl g = s.gl g + (l.flatten.map fun b => c b g).sum := by
  have h1 : Schedule (launchProg ops T l) (canon l.length T (phasesOf parts T l)) := by
    rw [launchProg_eq ho hl]
    exact canon_schedule (fun ph b t h => phasesOf_blk parts T l ph b t h) (fun ph b t h => phasesOf_thr parts T l ph b t h)
  rw [Schedule.unique hr hs h1]
  have key : ∀ (is : List ℕ) (s : State K),
      (execAll (is.flatMap fun b => (List.range 3).flatMap fun ph => phaseOf T (phasesOf parts T l) b ph) s).gl g =
      s.gl g + (is.map fun i => (((l[i]?).getD []).map fun b => c b g).sum).sum := by
    intro is
    induction is with
    | nil => intro s; exact (add_zero _).symm
    | cons i is ih =>
      intro s
      rw [List.flatMap_cons, execAll_append, ih, List.map_cons, List.sum_cons, ← add_assoc]
      congr 1
      have hlen : ((l[i]?).getD []).length ≤ 1 := by
        cases h : l[i]? with
        | none => simp
        | some x => exact hl x (List.mem_of_getElem? h)
      have hmem : ∀ b ∈ (l[i]?).getD [], ∃ x ∈ l, b ∈ x := by
        intro b hb
        cases h : l[i]? with
        | none => simp [h] at hb
        | some x =>
          rw [h] at hb
          exact ⟨x, List.mem_of_getElem? h, hb⟩
      have hph : ((List.range 3).flatMap fun ph => phaseOf T (phasesOf parts T l) i ph) = (List.range 3).flatMap fun ph =>
          phaseOf T (fun ph _ t => ((l[i]?).getD []).flatMap fun b => parts ph b t) i ph := by
        refine List.flatMap_congr fun ph _ => List.flatMap_congr fun t ht => ?_
        unfold phasesOf
        rw [if_pos (List.mem_range.1 ht)]
      rw [hph]
      generalize (l[i]?).getD [] = x at hlen hmem
      match x, hlen with
      | [], _ =>
        have : ((List.range 3).flatMap fun ph => phaseOf T (fun ph _ t => ([] : List Block).flatMap fun b => parts ph b t) i ph) =
            [] := by simp [phaseOf, List.flatMap_eq_nil_iff]
        rw [this]
        exact (add_zero _).symm
      | [b], _ =>
        obtain ⟨x, hx, hbx⟩ := hmem b List.mem_cons_self
        simpa using hb x hx b hbx i s g
  unfold canon
  rw [key]
  congr 1
  have h2 : (List.range l.length).map (fun i : ℕ => (l[i]?).getD []) = l := by
    refine List.ext_getElem (by simp) fun n h h' => ?_
    simp [List.getElem?_eq_getElem h']
  have h3 : l.flatten = (List.range l.length).flatMap fun i : ℕ => (l[i]?).getD [] := by
    conv_lhs => rw [← h2]
    rw [List.flatMap_def]
  rw [h3, sum_flatMap]

/-- the launches one after the other -/
theorem runs_gl {ops : Block → ℕ → List (ℕ × Op K)} {T : ℕ} {ls : List Launch} {c : Block → Loc → K}
    (h : ∀ l ∈ ls, ∀ (tr : List (Ev K)) (s : State K), Schedule (launchProg ops T l) tr → ∀ g,
      (execAll tr s).gl g = s.gl g + (l.flatten.map fun b => c b g).sum) {G G' : Loc → K} (hr : Runs ops T ls G G') (g : Loc) :
    G' g = G g + ((launched ls).map fun b => c b g).sum := by
  induction hr with
  | nil G => simp [launched]
  | cons l ls s tr G' hs hr ih =>
    rw [ih fun l hl => h l (List.mem_cons_of_mem _ hl), h l List.mem_cons_self tr s hs, add_assoc, ← List.sum_append,
      ← List.map_append]
    congr 3
    simp [launched]

/-- there are schedules -/
theorem runs_exists {ops : Block → ℕ → List (ℕ × Op K)} {parts : ℕ → Block → ℕ → List (Op K)} {T : ℕ}
    (ho : ∀ b t, ops b t = (List.range 3).flatMap fun ph => (parts ph b t).map (ph, ·)) :
    ∀ {ls : List Launch}, (∀ l ∈ ls, ∀ x ∈ l, x.length ≤ 1) → ∀ G, ∃ G', Runs ops T ls G G' := by
  intro ls
  induction ls with
  | nil => exact fun _ G => ⟨G, .nil G⟩
  | cons l ls ih =>
    intro hl G
    have h1 : Schedule (launchProg ops T l) (canon l.length T (phasesOf parts T l)) := by
      rw [launchProg_eq ho (hl l List.mem_cons_self)]
      exact canon_schedule (fun ph b t h => phasesOf_blk parts T l ph b t h) (fun ph b t h => phasesOf_thr parts T l ph b t h)
    obtain ⟨G', h2⟩ := ih (fun l' h' => hl l' (List.mem_cons_of_mem _ h'))
      (execAll (canon l.length T (phasesOf parts T l)) ⟨fun _ => 0, fun _ => 0, G, fun _ => 0, fun _ => 0⟩).gl
    exact ⟨G', .cons l ls ⟨fun _ => 0, fun _ => 0, G, fun _ => 0, fun _ => 0⟩ _ G' h1 h2⟩

/-! ## atomic additions to global memory -/

/-- the accesses of `opsXyz` by phase -/
def partsXyz (bs : N3) (d_off : List ℕ) (T : ℕ) (F : ℕ → ℕ → ℤ → ℤ → ℤ → K) (dep : Block → ℕ → List (Add K)) (ph : ℕ)
    (b : Block) (t : ℕ) : List (Op K) :=
  match ph with
  | 0 => fcLoad bs T (F b.p) b.ci0 t
  | 1 => (threadAdds d_off T dep b t).map fun e => .atomicGl ⟨b.p, e.m, e.i, e.j, e.k⟩ e.v
  | _ => []

theorem opsXyz_parts (bs : N3) (d_off : List ℕ) (T : ℕ) (F : ℕ → ℕ → ℤ → ℤ → ℤ → K) (dep : Block → ℕ → List (Add K)) (b : Block)
    (t : ℕ) : opsXyz bs d_off T F dep b t = (List.range 3).flatMap fun ph => (partsXyz bs d_off T F dep ph b t).map (ph, ·) := by
  simp [opsXyz, partsXyz, List.range_succ]

theorem exec_atomGl (b ph : ℕ) (l : List (ℕ × Loc × K)) (s : State K) (g : Loc) :
    (execAll (l.map fun x => ⟨b, x.1, ph, .atomicGl x.2.1 x.2.2⟩) s).gl g =
      s.gl g + (l.map fun x => if x.2.1 = g then x.2.2 else 0).sum := by
  induction l generalizing s with
  | nil => exact (add_zero _).symm
  | cons x l ih =>
    rw [List.map_cons, execAll_cons, ih, List.map_cons, List.sum_cons, ← add_assoc]
    congr 1
    simp only [Ev.exec, Function.update_apply]
    by_cases h : x.2.1 = g
    · rw [if_pos h.symm, if_pos h, h]
    · rw [if_neg (fun e => h e.symm), if_neg h, add_zero]

/-- the currents at `g` of the particles of the threads of a thread block -/
def blockCur (d_off : List ℕ) (T : ℕ) (dep : Block → ℕ → List (Add K)) (b : Block) (g : Loc) : K :=
  ((List.range T).map fun t => if b.p = g.p then fieldOf (threadAdds d_off T dep b t) g.m g.i g.j g.k else 0).sum

theorem blockCurrent_eq (d_off : List ℕ) (T : ℕ) (dep : Block → ℕ → List (Add K)) (b : Block) (g : Loc) :
    blockCurrent d_off T dep b g = blockCur d_off T (fun b n => (dep b n).map (atBlock b)) b g := by
  simp only [blockCurrent, blockCur, threadAdds, List.map_flatMap]

theorem execXyz_block (bs : N3) (d_off : List ℕ) (T : ℕ) (F : ℕ → ℕ → ℤ → ℤ → ℤ → K)
    (dep : Block → ℕ → List (Add K)) (b : Block) (i : ℕ) (s : State K) (g : Loc) :
    (execAll ((List.range 3).flatMap fun ph => phaseOf T (fun ph _ t => partsXyz bs d_off T F dep ph b t) i ph) s).gl g =
      s.gl g + blockCur d_off T dep b g := by
  set P : ℕ → ℕ → ℕ → List (Op K) := fun ph _ t => partsXyz bs d_off T F dep ph b t
  have e3 : ((List.range 3).flatMap fun ph => phaseOf T P i ph) = phaseOf T P i 0 ++ phaseOf T P i 1 := by
    simp [List.range_succ, phaseOf, P, partsXyz]
  rw [e3, execAll_append]
  obtain ⟨g0, -⟩ := exec_zero i (phaseOf T P i 0) (by
    intro e he
    simp only [phaseOf, List.mem_flatMap, List.mem_map] at he
    obtain ⟨t, -, o, ho, rfl⟩ := he
    refine ⟨rfl, ?_⟩
    simp only [P, partsXyz, fcLoad, List.mem_flatMap, List.mem_map] at ho
    obtain ⟨ti, -, m, -, rfl⟩ := ho
    exact .inl ⟨_, _, rfl⟩) s
  have e1 : phaseOf T P i 1 = ((List.range T).flatMap fun t => (threadAdds d_off T dep b t).map fun e =>
      (t, (⟨b.p, e.m, e.i, e.j, e.k⟩ : Loc), e.v)).map fun x => ⟨i, x.1, 1, .atomicGl x.2.1 x.2.2⟩ := by
    simp [phaseOf, P, partsXyz, List.map_flatMap, Function.comp_def]
  rw [e1, exec_atomGl, g0]
  congr 1
  rw [sum_flatMap]
  unfold blockCur fieldOf
  congr 1
  refine List.map_congr_left fun t _ => ?_
  rw [List.map_map]
  obtain ⟨p, m, gi, gj, gk⟩ := g
  by_cases hp : b.p = p
  · rw [if_pos hp]
    congr 1
    refine List.map_congr_left fun e _ => ?_
    simp only [Function.comp_apply, Loc.mk.injEq, hp, true_and]
  · rw [if_neg hp]
    refine sum_zero fun e _ => if_neg ?_
    simp [hp]

/-! ## all particles -/

theorem field_flatMap {A : Type*} (l : List A) (f : A → List (Add K)) (m : Fin 3) (i j k : ℤ) :
    fieldOf (l.flatMap f) m i j k = (l.map fun x => fieldOf (f x) m i j k).sum := by
  unfold fieldOf
  rw [sum_flatMap]

theorem threadAdds_eq {g : Ix} {d_off : List ℕ} {off : ℕ → ℕ} (ho : Offsets g d_off off) {T : ℕ} {b : Block}
    (hb : b.bid < g.nBlocks) (dep : Block → ℕ → List (Add K)) (t : ℕ) :
    threadAdds d_off T dep b t = (inBlock T (off b.bid) (off (b.bid + 1)) t).flatMap (dep b) := by
  have h1 : d_off[b.bid]? = some (off b.bid) := by
    rw [ho, List.getElem?_map, List.getElem?_range (by omega)]; rfl
  have h2 : d_off[b.bid + 1]? = some (off (b.bid + 1)) := by
    rw [ho, List.getElem?_map, List.getElem?_range (by omega)]; rfl
  simp [threadAdds, threadWork, h1, h2]

theorem blockCur_eq {g : Ix} {d_off : List ℕ} {off : ℕ → ℕ} (ho : Offsets g d_off off) {T : ℕ} (hT : 0 < T) {b : Block}
    (hb : b.bid < g.nBlocks) (dep : Block → ℕ → List (Add K)) (loc : Loc) :
    blockCur d_off T dep b loc =
      ((List.range' (off b.bid) (off (b.bid + 1) - off b.bid)).map fun n => current dep loc (b, n)).sum := by
  unfold blockCur
  simp only [threadAdds_eq ho hb]
  rw [← ((inBlock_perm hT (off b.bid) (off (b.bid + 1))).map fun n => current dep loc (b, n)).sum_eq, sum_flatMap]
  congr 1
  refine List.map_congr_left fun t _ => ?_
  unfold current
  split_ifs with hp
  · rw [field_flatMap]
  · rw [sum_zero fun _ _ => rfl]

theorem allParticles_sum {g : Ix} {d_off : List ℕ} {off : ℕ → ℕ} (ho : Offsets g d_off off) {T : ℕ} (hT : 0 < T)
    {ls : List Launch} (hl : (launched ls).Perm ((List.range g.nBlocks).map (blockAt g))) (dep : Block → ℕ → List (Add K)) (loc : Loc) :
    ((launched ls).map fun b => blockCur d_off T dep b loc).sum = ((allParticles g off).map (current dep loc)).sum := by
  unfold allParticles
  rw [sum_flatMap, ((hl.trans (allBlocks_perm g).symm).map fun b => blockCur d_off T dep b loc).sum_eq]
  congr 1
  refine List.map_congr_left fun b hb => ?_
  have : b.bid < g.nBlocks := by
    obtain ⟨r, hr, rfl⟩ := List.mem_map.1 ((allBlocks_perm g).mem_iff.1 hb)
    rw [blockAt_bid]
    exact List.mem_range.1 hr
  rw [blockCur_eq ho hT this, List.map_map]
  rfl

/-- the particles a thread has are particles of the block -/
theorem threadAdds_mem {g : Ix} {d_off : List ℕ} {off : ℕ → ℕ} (ho : Offsets g d_off off) {T : ℕ} (hT : 0 < T) {b : Block}
    (hb : b ∈ allBlocks g) {dep : Block → ℕ → List (Add K)} {t : ℕ} (ht : t < T) {e : Add K} (he : e ∈ threadAdds d_off T dep b t) :
    ∃ x ∈ allParticles g off, e ∈ dep x.1 x.2 := by
  have h1 : b.bid < g.nBlocks := by
    obtain ⟨r, hr, rfl⟩ := List.mem_map.1 ((allBlocks_perm g).mem_iff.1 hb)
    rw [blockAt_bid]
    exact List.mem_range.1 hr
  rw [threadAdds_eq ho h1, List.mem_flatMap] at he
  obtain ⟨n, hn, he⟩ := he
  refine ⟨(b, n), ?_, he⟩
  unfold allParticles
  rw [List.mem_flatMap]
  refine ⟨b, hb, List.mem_map.2 ⟨n, ?_, rfl⟩⟩
  exact (inBlock_perm hT _ _).mem_iff.1 (List.mem_flatMap.2 ⟨t, List.mem_range.2 ht, hn⟩)

/-! ## the launches of the push -/

theorem qYz_single {g : Ix} {l : Launch} (hl : l ∈ qYz g) : ∀ x ∈ l, x.length ≤ 1 := by
  obtain ⟨s, -, rfl⟩ := List.mem_map.1 hl
  intro x hx
  obtain ⟨i, -, rfl⟩ := List.mem_map.1 hx
  cases qYzInit g s i <;> simp

theorem simple_single {g : Ix} {l : Launch} (hl : l ∈ simple g) : ∀ x ∈ l, x.length ≤ 1 := by
  simp only [simple, List.mem_singleton] at hl
  subst hl
  intro x hx
  obtain ⟨i, -, rfl⟩ := List.mem_map.1 hx
  simp

theorem qYz_apart {g : Ix} (h1 : 3 ≤ g.bs 1) (h2 : 3 ≤ g.bs 2) {l : Launch} (hl : l ∈ qYz g) :
    ∀ i i' : ℕ, i ≠ i' → ∀ b ∈ (l[i]?).getD [], ∀ b' ∈ (l[i']?).getD [], Apart g.bs b b' := by
  obtain ⟨s, -, rfl⟩ := List.mem_map.1 hl
  set D := dim3 ((g.bMx 1 + 1) / 2) ((g.bMx 2 + 1) / 2 * g.nPatches) 1
  have get : ∀ (i : ℕ) (b : Block), b ∈ ((D.map fun i => (qYzInit g s i).toList)[i]?).getD [] →
      ∃ I, D[i]? = some I ∧ qYzInit g s I = some b := by
    intro i b hb
    rw [List.getElem?_map] at hb
    cases h : D[i]? with
    | none => simp [h] at hb
    | some I =>
      rw [h] at hb
      exact ⟨I, rfl, by simpa using hb⟩
  have gap : ∀ (bs x y : ℕ), 3 ≤ bs → x + 2 ≤ y → x * bs + bs + 3 ≤ y * bs := by
    intro bs x y hb hxy
    have := Nat.mul_le_mul_right bs hxy
    rw [Nat.add_mul] at this
    omega
  intro i i' hne b hb b' hb'
  obtain ⟨⟨x, y, z⟩, e1, e2⟩ := get i b hb
  obtain ⟨⟨x', y', z'⟩, e1', e2'⟩ := get i' b' hb'
  have hI : (x, y, z) ≠ (x', y', z') := by
    intro h
    rw [← h] at e1'
    exact hne ((List.getElem?_inj (List.getElem?_eq_some_iff.1 e1).1 (dim3_nodup _ _ _)).1 (e1.trans e1'.symm))
  have m := mem_dim3.1 (List.mem_of_getElem? e1)
  have m' := mem_dim3.1 (List.mem_of_getElem? e1')
  simp only [qYzInit] at e2 e2'
  split_ifs at e2 with c
  split_ifs at e2' with c'
  cases e2
  cases e2'
  unfold Apart
  show y / _ ≠ y' / _ ∨ ((x * 2 + s % 2) * g.bs 1 + g.bs 1 + 3 ≤ (x' * 2 + s % 2) * g.bs 1 ∨
    (x' * 2 + s % 2) * g.bs 1 + g.bs 1 + 3 ≤ (x * 2 + s % 2) * g.bs 1) ∨
    ((y % ((g.bMx 2 + 1) / 2) * 2 + s / 2) * g.bs 2 + g.bs 2 + 3 ≤ (y' % ((g.bMx 2 + 1) / 2) * 2 + s / 2) * g.bs 2 ∨
    (y' % ((g.bMx 2 + 1) / 2) * 2 + s / 2) * g.bs 2 + g.bs 2 + 3 ≤ (y % ((g.bMx 2 + 1) / 2) * 2 + s / 2) * g.bs 2)
  by_cases hp : y / ((g.bMx 2 + 1) / 2) = y' / ((g.bMx 2 + 1) / 2)
  · right
    by_cases hx : x = x'
    · right
      have hy : y % ((g.bMx 2 + 1) / 2) ≠ y' % ((g.bMx 2 + 1) / 2) := by
        intro h
        have hy := divmod_inj hp h
        refine hI ?_
        have : z = z' := by simp only at m m'; omega
        rw [hx, hy, this]
      generalize y % ((g.bMx 2 + 1) / 2) = r at hy
      generalize y' % ((g.bMx 2 + 1) / 2) = r' at hy
      rcases Nat.lt_or_gt_of_ne hy with h | h
      · exact .inl (gap _ _ _ h2 (by omega))
      · exact .inr (gap _ _ _ h2 (by omega))
    · left
      rcases Nat.lt_or_gt_of_ne hx with h | h
      · exact .inl (gap _ _ _ h1 (by omega))
      · exact .inr (gap _ _ _ h1 (by omega))
  · exact .inl hp

end Psc.CudaSched
