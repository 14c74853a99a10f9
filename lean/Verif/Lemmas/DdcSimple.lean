import Verif.Spec.DdcSimple
import Verif.Lemmas.DdcRun
import Verif.Props.Ddc
import Verif.Props.DomainSimple

namespace Psc.DdcSimple

open DomainSimple Ddc Props Domain

variable {K : Type} {c : Cfg} {size : ℤ}

theorem proc_eq {np : I3} (hL : Layout size np) {r : ℤ} (hr : 0 ≤ r ∧ r < size) : proc np r = rank2proc np r := by
  have p0 := hL.pos 0; have p1 := hL.pos 1; have p2 := hL.pos 2
  have e2 : r / np 0 / np 1 % np 2 = r / np 0 / np 1 := by
    refine Int.emod_eq_of_lt (Int.ediv_nonneg (Int.ediv_nonneg hr.1 p0.le) p1.le) ?_
    rw [Int.ediv_lt_iff_lt_mul p1, Int.ediv_lt_iff_lt_mul p0]
    have := hr.2
    rw [← hL.size] at this
    nlinarith
  unfold proc rank2proc
  rw [e2]

theorem get_nei_rank_eq (hL : Layout size c.np) {r : ℤ} (hr : 0 ≤ r ∧ r < size) (dir : I3) :
    get_nei_rank c r dir = (get_neighbor_rank_patch c.np c.bc (rank2proc c.np r) dir).1 := by
  have e : procNei c r dir = fun d => wrapProc c.np c.bc d (rank2proc c.np r d + dir d) := by
    funext d
    simp only [procNei, wrapProc, proc_eq hL hr]
  unfold get_nei_rank get_neighbor_rank_patch
  rw [e]
  dsimp only
  split_ifs with h
  · rfl
  · show _ = proc2rank _ _
    unfold proc2rank get_rank
    rw [if_neg h]

theorem neighbour_eq (hL : Layout size c.np) {r : ℤ} (hr : 0 ≤ r ∧ r < size) (dir : I3) :
    neighbour c r dir = if get_nei_rank c r dir < 0 then none else some (get_nei_rank c r dir) := by
  unfold neighbour
  rw [get_nei_rank_eq hL hr]

theorem neighbour_some (hL : Layout size c.np) {r q : ℤ} (hr : 0 ≤ r ∧ r < size) {dir : I3} (hd : IsDir dir)
    (h : neighbour c r dir = some q) :
    get_neighbor_rank_patch c.np c.bc (rank2proc c.np r) dir = (q, 0) := by
  have h1 := C98_neighbour hL c.bc hr dir hd
  unfold neighbour at h
  split_ifs at h1 with hout
  · rw [h1] at h
    simp at h
  · obtain ⟨r', hr', e, _⟩ := h1
    rw [e] at h ⊢
    rw [if_neg (by dsimp only; omega)] at h
    have h : r' = q := Option.some.inj h
    rw [h]

/-- the neighbour is a process, and its neighbour in the opposite direction is the process -/
theorem neighbour_back (hL : Layout size c.np) {r q : ℤ} (hr : 0 ≤ r ∧ r < size) {dir : I3} (hd : IsDir dir)
    (h : neighbour c r dir = some q) : (0 ≤ q ∧ q < size) ∧ neighbour c q (fun d => -dir d) = some r := by
  obtain ⟨hq, hb⟩ := C98_neighbour_mutual hL c.bc hr dir hd (neighbour_some hL hr hd h)
  refine ⟨hq, ?_⟩
  unfold neighbour
  rw [hb, if_neg (by dsimp only; omega)]

/-- in a direction in which it is not shifted, the neighbour is at the same place -/
theorem neighbour_same (hL : Layout size c.np) {r q : ℤ} (hr : 0 ≤ r ∧ r < size) {dir : I3} (hd : IsDir dir)
    (h : neighbour c r dir = some q) {d : Fin 3} (h0 : dir d = 0) : rank2proc c.np r d = rank2proc c.np q d := by
  have h1 := C98_neighbour hL c.bc hr dir hd
  have h2 := neighbour_some hL hr hd h
  have hin := rank2proc_in hL hr d
  split_ifs at h1 with hout
  · rw [h1] at h2
    simp at h2
  · obtain ⟨r', hr', e, hp⟩ := h1
    rw [h2] at e
    have : q = r' := by simpa using e
    subst this
    rw [hp d, h0, add_zero]
    split_ifs
    · rw [Int.emod_eq_of_lt hin.1 hin.2]
    · rfl

/-! ## regions -/

/-- `renumber` is a shift -/
def shiftOf (c : Cfg) (r q : ℤ) (dir : I3) : I3 := fun d =>
  if dir d = 1 then c.lo q d - c.hi r d else if dir d = -1 then c.hi q d - c.lo r d else c.lo q d - c.lo r d

theorem renumber_eq (r q : ℤ) (dir n : I3) : renumber c r q dir n = fun d => n d + shiftOf c r q dir d := by
  funext d
  unfold renumber shiftOf
  split_ifs <;> ring

/-- what the two patterns have in common -/
structure Regs (c : Cfg) (size : ℤ) (sreg rreg : ℤ → I3 → Box) : Prop where
  ok : ∀ r, 0 ≤ r ∧ r < size → ∀ dir, (rreg r dir).Ok
  fit : ∀ r q dir, 0 ≤ r ∧ r < size → IsDir dir → neighbour c r dir = some q →
    sreg q (fun d => -dir d) = (rreg r dir).shift (shiftOf c r q dir)

theorem box_ext {a b : Box} (h : ∀ d, a.ilo d = b.ilo d) (h' : ∀ d, a.ihi d = b.ihi d) : a = b := by
  cases a; cases b
  congr
  · exact funext h
  · exact funext h'

theorem regs_fill (hc : Fits c size) : Regs c size (inside c) (outside c) := by
  refine ⟨fun r hr dir d => ?_, fun r q dir hr hd hn => ?_⟩
  · have := hc.ibn d; have := hc.room r hr d
    simp only [outside]
    split_ifs <;> omega
  · have hs := fun d h0 => hc.aligned r q d hr (neighbour_back hc.layout hr hd hn).1 (neighbour_same hc.layout hr hd hn (d := d) h0)
    refine box_ext (fun d => ?_) fun d => ?_ <;>
    · have h1 := hd d; have h2 := hs d
      have : dir d = -1 ∨ dir d = 0 ∨ dir d = 1 := by omega
      rcases this with e | e | e <;> simp [inside, outside, Box.shift, shiftOf, e] <;> omega

theorem regs_add (hc : Fits c size) : Regs c size (outside c) (inside c) := by
  refine ⟨fun r hr dir d => ?_, fun r q dir hr hd hn => ?_⟩
  · have := hc.ibn d; have := hc.room r hr d
    simp only [inside]
    split_ifs <;> omega
  · have hs := fun d h0 => hc.aligned r q d hr (neighbour_back hc.layout hr hd hn).1 (neighbour_same hc.layout hr hd hn (d := d) h0)
    refine box_ext (fun d => ?_) fun d => ?_ <;>
    · have h1 := hd d; have h2 := hs d
      have : dir d = -1 ∨ dir d = 0 ∨ dir d = 1 := by omega
      rcases this with e | e | e <;> simp [inside, outside, Box.shift, shiftOf, e] <;> omega

theorem shift_len (b : Box) (s : I3) : (b.shift s).len = b.len := by
  unfold Box.len Box.shift
  dsimp only
  ring

theorem sendrecv_some {reg : ℤ → I3 → Box} (hL : Layout size c.np) {r : ℤ} (hr : 0 ≤ r ∧ r < size) {dir : I3} {nb : ℤ × Box} :
    sendrecv reg c r dir = some nb ↔
      ¬ IsZero dir ∧ neighbour c r dir = some nb.1 ∧ 0 < (reg r dir).len ∧ nb.2 = reg r dir := by
  rw [neighbour_eq hL hr]
  unfold sendrecv IsZero
  obtain ⟨q, b⟩ := nb
  by_cases h1 : dir 0 = 0 ∧ dir 1 = 0 ∧ dir 2 = 0
  · rw [if_pos h1]
    simp only [reduceCtorEq, false_iff]
    exact fun h => h.1 h1
  rw [if_neg h1]
  by_cases h2 : get_nei_rank c r dir < 0
  · simp [h2]
  rw [if_neg h2, if_neg h2]
  by_cases h3 : (reg r dir).len > 0
  · rw [if_pos h3]
    simp only [Option.some.injEq, Prod.mk.injEq]
    exact ⟨fun h => ⟨h1, h.1, h3, h.2.symm⟩, fun h => ⟨h.2.1, h.2.2.2.symm⟩⟩
  · rw [if_neg h3]
    simp only [reduceCtorEq, false_iff]
    exact fun h => h3 h.2.2.1

/-- the two ends of a message agree -/
theorem Regs.back {sreg rreg : ℤ → I3 → Box} (hL : Layout size c.np) (R : Regs c size sreg rreg) {r : ℤ}
    (hr : 0 ≤ r ∧ r < size) {dir : I3} (hd : IsDir dir) {q : ℤ} {b : Box} (h : sendrecv rreg c r dir = some (q, b)) :
    (0 ≤ q ∧ q < size) ∧ b = rreg r dir ∧
      sendrecv sreg c q (fun d => -dir d) = some (r, b.shift (shiftOf c r q dir)) := by
  obtain ⟨hz, hn, hl, rfl⟩ := (sendrecv_some hL hr).1 h
  dsimp only at hn hl ⊢
  obtain ⟨hq, hb⟩ := neighbour_back hL hr hd hn
  refine ⟨hq, rfl, (sendrecv_some hL hq).2 ⟨fun h => hz (IsZero.neg_iff.1 h), hb, ?_, ?_⟩⟩
  · rw [R.fit r q dir hr hd hn, shift_len]; exact hl
  · rw [R.fit r q dir hr hd hn]

/-- filtering by the tag leaves at most the message of one direction -/
theorem filter_dirs {α : Type} (g : I3 → Option α) (tag : α → ℤ) (p : α → Prop) [DecidablePred p] (f : I3 → I3)
    (hf : ∀ a b, IsDir a → IsDir b → f a = f b → a = b) (hf' : ∀ a, IsDir a → IsDir (f a))
    (ht : ∀ dir x, g dir = some x → tag x = 0x1000 + dir2idx (f dir)) {dir : I3} (hd : IsDir dir) :
    (dirs.filterMap g).filter (fun x => p x ∧ tag x = 0x1000 + dir2idx (f dir)) = (g dir).toList.filter (fun x => p x) := by
  have key : ∀ l : List I3, (∀ a ∈ l, IsDir a) → l.Nodup →
      (l.filterMap g).filter (fun x => p x ∧ tag x = 0x1000 + dir2idx (f dir)) =
        if dir ∈ l then (g dir).toList.filter (fun x => p x) else [] := by
    intro l
    induction l with
    | nil => intro _ _; simp
    | cons a l ih =>
      intro ha hn
      have ih := ih (fun x h => ha x (List.mem_cons_of_mem _ h)) (List.nodup_cons.1 hn).2
      have hna := (List.nodup_cons.1 hn).1
      by_cases h : dir = a
      · subst h
        rw [if_neg hna] at ih
        rw [if_pos List.mem_cons_self]
        cases hg : g dir with
        | none => rw [List.filterMap_cons_none hg, ih]; simp
        | some x =>
          rw [List.filterMap_cons_some hg, List.filter_cons, ih]
          have := ht dir x hg
          by_cases hp : p x <;> simp [hp, this]
      · have hm : (dir ∈ a :: l) ↔ dir ∈ l := by simp [h]
        simp only [hm]
        rw [← ih]
        cases hg : g a with
        | none => rw [List.filterMap_cons_none hg]
        | some x =>
          rw [List.filterMap_cons_some hg, List.filter_cons, if_neg]
          have := ht a x hg
          simp only [decide_eq_true_eq, not_and]
          intro _ h2
          rw [this] at h2
          have h2 : dir2idx (f a) = dir2idx (f dir) := by omega
          exact h (hf _ _ (ha a List.mem_cons_self) hd (dir2idx_inj (hf' _ (ha a List.mem_cons_self)) (hf' _ hd) h2)).symm
  have := key dirs (fun a h => mem_dirs.1 h) nodup_dirs
  rw [if_pos (mem_dirs.2 hd)] at this
  exact this

theorem neg_inj_dir (a b : I3) (h : (fun d => -a d) = fun d => -b d) : a = b := by
  funext d
  have := congrFun h d
  simpa using this

/-- the messages of rank `q` to `dst` with the tag of a direction -/
theorem filter_sends (sreg : ℤ → I3 → Box) (mb me : ℕ) (σ : ℤ → PF K) (q dst : ℤ) {dir : I3} (hd : IsDir dir) :
    (sends sreg c mb me σ q).filter (fun m => m.dst = dst ∧ m.tag = 0x1000 + dir2idx dir) =
      (((sendrecv sreg c q dir).map fun nb => (⟨q, nb.1, 0x1000 + dir2idx dir, to_buf mb me (σ q) nb.2⟩ : Msg K)).toList.filter
        fun m => m.dst = dst) := by
  refine filter_dirs _ (fun m : Msg K => m.tag) (fun m => m.dst = dst) (fun a => a) (fun a b _ _ h => h) (fun a h => h) ?_ hd
  intro dir x h
  obtain ⟨nb, _, rfl⟩ := Option.map_eq_some_iff.1 h
  rfl

/-- the receives of rank `r` from `src` with the tag of a direction -/
theorem filter_recvs (rreg : ℤ → I3 → Box) (mb me : ℕ) (r src : ℤ) {dir : I3} (hd : IsDir dir) :
    (recvs rreg c mb me r).filter (fun m => m.src = src ∧ m.tag = 0x1000 + dir2idx fun d => -dir d) =
      (((sendrecv rreg c r dir).map fun nb => (⟨nb.1, r, 0x1000 + dir2idx (fun d => -dir d),
        (nb.2.len * ((me : ℤ) - mb)).toNat, nb.2⟩ : Recv)).toList.filter fun m => m.src = src) := by
  refine filter_dirs _ (fun m : Recv => m.tag) (fun m => m.src = src) (fun a d => -a d) (fun a b _ _ h => neg_inj_dir a b h)
    (fun a h => isDir_neg h) ?_ hd
  intro dir x h
  obtain ⟨nb, _, rfl⟩ := Option.map_eq_some_iff.1 h
  rfl

theorem length_to_buf (mb me : ℕ) (hm : mb ≤ me) (F : PF K) (b : Box) (hb : b.Ok) (s : I3) :
    (to_buf mb me F (b.shift s)).length = (b.len * ((me : ℤ) - mb)).toNat := by
  unfold to_buf
  rw [List.length_map, cells_shift, List.length_map, length_cells_len mb me hm b hb]

/-- a receive gets the cells of the neighbour -/
theorem deliver_eq {sreg rreg : ℤ → I3 → Box} (hL : Layout size c.np) (R : Regs c size sreg rreg) {r : ℤ}
    (hr : 0 ≤ r ∧ r < size) {dir : I3} (hd : IsDir dir) {q : ℤ} {b : Box} (h : sendrecv rreg c r dir = some (q, b))
    (mb me : ℕ) (hm : mb ≤ me) (σ : ℤ → PF K) :
    deliver (sends sreg c mb me σ q)
      ⟨q, r, 0x1000 + dir2idx (fun d => -dir d), (b.len * ((me : ℤ) - mb)).toNat, b⟩ =
    some (to_buf mb me (σ q) (b.shift (shiftOf c r q dir))) := by
  obtain ⟨hq, rfl, hs⟩ := R.back hL hr hd h
  have hf := filter_sends (c := c) sreg mb me σ q r (isDir_neg hd)
  rw [hs] at hf
  simp only [Option.map_some, Option.toList_some] at hf
  rw [List.filter_cons_of_pos (by simp), List.filter_nil] at hf
  unfold deliver
  dsimp only
  rw [← List.head?_filter, hf]
  simp only [List.head?_cons]
  rw [if_pos (length_to_buf mb me hm _ _ (R.ok r hr dir) _)]

theorem nodup_cells (mb me : ℕ) (b : Box) : (cells mb me b).Nodup := by
  rw [List.nodup_iff_injective_get]
  intro i j h
  have h1 := C29_buf3 mb me b i i.2
  have h2 := C29_buf3 mb me b j j.2
  have h : (cells mb me b)[i.1]'i.2 = (cells mb me b)[j.1]'j.2 := h
  rw [h, h2] at h1
  exact Fin.ext (by omega)

/-- unpacking a message changes the cells of the box, once each -/
theorem from_buf_map (upd : K → K → K) (mb me : ℕ) (F : PF K) (b : Box) (g : ℕ × I3 → K) (a : ℕ × I3) :
    from_buf upd mb me F b ((cells mb me b).map g) a = if a ∈ cells mb me b then upd (F a) (g a) else F a := by
  have key : ∀ (l : List (ℕ × I3)) (F : PF K), l.Nodup →
      (l.zip (l.map g)).foldl (fun F cv => wr upd F cv.1 cv.2) F a = if a ∈ l then upd (F a) (g a) else F a := by
    intro l
    induction l with
    | nil => intro F _; simp
    | cons x l ih =>
      intro F hn
      have hx := (List.nodup_cons.1 hn).1
      rw [List.map_cons, List.zip_cons_cons, List.foldl_cons, ih _ (List.nodup_cons.1 hn).2]
      by_cases h : a = x
      · subst h
        simp [hx, wr]
      · simp [h, wr]
  exact key _ _ (nodup_cells mb me b)

/-- what one direction does -/
def stepDir (upd : K → K → K) (rreg : ℤ → I3 → Box) (c : Cfg) (mb me : ℕ) (σ : ℤ → PF K) (r : ℤ) (F : PF K) (dir : I3) : PF K :=
  match sendrecv rreg c r dir with
  | none => F
  | some (q, b) => fun a => if a ∈ cells mb me b then upd (F a) (σ q (a.1, renumber c r q dir a.2)) else F a

theorem run_eq {sreg rreg : ℤ → I3 → Box} (hL : Layout size c.np) (R : Regs c size sreg rreg) (upd : K → K → K) {r : ℤ}
    (hr : 0 ≤ r ∧ r < size) (mb me : ℕ) (hm : mb ≤ me) (σ : ℤ → PF K) :
    run upd sreg rreg c mb me σ r = some (dirs.foldl (stepDir upd rreg c mb me σ r) (σ r)) := by
  have key : ∀ (l : List I3) (F : PF K), (∀ a ∈ l, IsDir a) →
      (l.filterMap fun dir => (sendrecv rreg c r dir).map fun nb => (⟨nb.1, r, 0x1000 + dir2idx (fun d => -dir d),
        (nb.2.len * ((me : ℤ) - mb)).toNat, nb.2⟩ : Recv)).foldlM (fun F q =>
        (deliver (sends sreg c mb me σ q.src) q).map fun buf => from_buf upd mb me F q.box buf) F =
      some (l.foldl (stepDir upd rreg c mb me σ r) F) := by
    intro l
    induction l with
    | nil => intro F _; rfl
    | cons dir l ih =>
      intro F hd
      have hd0 := hd dir List.mem_cons_self
      have ih := fun F => ih F fun a h => hd a (List.mem_cons_of_mem _ h)
      cases h : sendrecv rreg c r dir with
      | none =>
        rw [List.filterMap_cons_none (by rw [h]; rfl), List.foldl_cons, ih]
        simp only [stepDir, h]
      | some nb =>
        obtain ⟨q, b⟩ := nb
        rw [List.filterMap_cons_some (by rw [h]; rfl), List.foldlM_cons]
        dsimp only
        rw [deliver_eq hL R hr hd0 h mb me hm σ]
        simp only [Option.map_some]
        show List.foldlM _ _ _ = _
        rw [ih, List.foldl_cons]
        congr 2
        funext a
        simp only [stepDir, h]
        unfold to_buf
        rw [cells_shift, List.map_map, from_buf_map]
        simp only [Function.comp_apply, renumber_eq]
  exact key dirs (σ r) fun a h => mem_dirs.1 h

/-- a box that is not inside out has cells only if its length is positive -/
theorem len_pos_of_mem {mb me : ℕ} {b : Box} {a : ℕ × I3} (h : a ∈ cells mb me b) : 0 < b.len := by
  have h := (mem_cells.1 h).2
  have h0 := h 0; have h1 := h 1; have h2 := h 2
  unfold Box.len
  exact mul_pos (mul_pos (by omega) (by omega)) (by omega)

/-- what one direction does, in terms of the neighbour -/
theorem stepDir_apply (hL : Layout size c.np) (upd : K → K → K) (rreg : ℤ → I3 → Box) (mb me : ℕ) (σ : ℤ → PF K) {r : ℤ}
    (hr : 0 ≤ r ∧ r < size) (F : PF K) (dir : I3) (a : ℕ × I3) :
    stepDir upd rreg c mb me σ r F dir a =
      if ¬ IsZero dir ∧ a ∈ cells mb me (rreg r dir) then
        match neighbour c r dir with
        | none => F a
        | some q => upd (F a) (σ q (a.1, renumber c r q dir a.2))
      else F a := by
  unfold stepDir
  cases h : sendrecv rreg c r dir with
  | none =>
    dsimp only
    split_ifs with h1
    · cases hn : neighbour c r dir with
      | none => rfl
      | some q =>
        have := (sendrecv_some (nb := (q, rreg r dir)) hL hr).2 ⟨h1.1, hn, len_pos_of_mem h1.2, rfl⟩
        rw [this] at h
        simp at h
    · rfl
  | some nb =>
    obtain ⟨q, b⟩ := nb
    obtain ⟨hz, hn, _, e⟩ := (sendrecv_some hL hr).1 h
    dsimp only at hn e ⊢
    subst e
    rw [hn]
    by_cases h1 : a ∈ cells mb me (rreg r dir)
    · rw [if_pos h1, if_pos ⟨hz, h1⟩]
    · rw [if_neg h1, if_neg fun h => h1 h.2]

theorem side_cases (c : Cfg) (r : ℤ) (n : I3) (d : Fin 3) : (n d < c.lo r d ∧ side c r n d = -1) ∨
    (c.lo r d ≤ n d ∧ n d < c.hi r d ∧ side c r n d = 0) ∨ (c.lo r d ≤ n d ∧ c.hi r d ≤ n d ∧ side c r n d = 1) := by
  unfold side
  by_cases h : n d < c.lo r d
  · rw [if_pos h]; exact .inl ⟨h, rfl⟩
  · rw [if_neg h]
    by_cases h' : n d < c.hi r d
    · rw [if_pos h']; exact .inr (.inl ⟨by omega, h', rfl⟩)
    · rw [if_neg h']; exact .inr (.inr ⟨by omega, by omega, rfl⟩)

/-- the ghost cells towards `dir` are those on that side -/
theorem mem_outside (hc : Fits c size) {r : ℤ} (hr : 0 ≤ r ∧ r < size) {dir n : I3} (hd : IsDir dir) :
    (∀ d, (outside c r dir).ilo d ≤ n d ∧ n d < (outside c r dir).ihi d) ↔ Stored c r n ∧ side c r n = dir := by
  have key : ∀ d, ((outside c r dir).ilo d ≤ n d ∧ n d < (outside c r dir).ihi d) ↔
      (c.lo r d - c.ibn d ≤ n d ∧ n d < c.hi r d + c.ibn d) ∧ side c r n d = dir d := by
    intro d
    have h1 := hd d; have h2 := hc.ibn d; have h3 := hc.room r hr d
    have h4 := side_cases c r n d
    have : dir d = -1 ∨ dir d = 0 ∨ dir d = 1 := by omega
    generalize side c r n d = x at *
    rcases this with e | e | e <;> simp only [outside, e] <;> simp <;> omega
  constructor
  · intro h
    exact ⟨fun d => ((key d).1 (h d)).1, funext fun d => ((key d).1 (h d)).2⟩
  · rintro ⟨h1, h2⟩ d
    exact (key d).2 ⟨h1 d, congrFun h2 d⟩

/-- the cells sent to or received from the neighbour in direction `dir` are those that are ghost cells of the neighbour -/
theorem mem_inside (hc : Fits c size) {r q : ℤ} (hr : 0 ≤ r ∧ r < size) {dir n : I3} (hd : IsDir dir)
    (hn : neighbour c r dir = some q) :
    (∀ d, (inside c r dir).ilo d ≤ n d ∧ n d < (inside c r dir).ihi d) ↔
      Interior c r n ∧ Stored c q (renumber c r q dir n) ∧ side c q (renumber c r q dir n) = fun d => -dir d := by
  obtain ⟨hq, hb⟩ := neighbour_back hc.layout hr hd hn
  have key : ∀ d, ((inside c r dir).ilo d ≤ n d ∧ n d < (inside c r dir).ihi d) ↔
      (c.lo r d ≤ n d ∧ n d < c.hi r d) ∧
      (c.lo q d - c.ibn d ≤ renumber c r q dir n d ∧ renumber c r q dir n d < c.hi q d + c.ibn d) ∧
      side c q (renumber c r q dir n) d = -dir d := by
    intro d
    have h1 := hd d; have h2 := hc.ibn d; have h3 := hc.room r hr d; have h4 := hc.room q hq d
    have h5 := fun h0 => hc.aligned r q d hr hq (neighbour_same hc.layout hr hd hn (d := d) h0)
    have h6 := side_cases c q (renumber c r q dir n) d
    have : dir d = -1 ∨ dir d = 0 ∨ dir d = 1 := by omega
    generalize side c q (renumber c r q dir n) d = x at *
    have h7 : renumber c r q dir n d = if dir d = 1 then c.lo q d + (n d - c.hi r d)
      else if dir d = -1 then c.hi q d - (c.lo r d - n d) else c.lo q d + (n d - c.lo r d) := rfl
    generalize renumber c r q dir n d = y at *
    rcases this with e | e | e <;> simp [e] at h7 <;> simp only [inside, e] <;> simp <;> omega
  constructor
  · intro h
    exact ⟨fun d => ((key d).1 (h d)).1, fun d => ((key d).1 (h d)).2.1, funext fun d => ((key d).1 (h d)).2.2⟩
  · rintro ⟨h0, h1, h2⟩ d
    exact (key d).2 ⟨h0 d, h1 d, congrFun h2 d⟩

theorem side_dir (c : Cfg) (r : ℤ) (n : I3) : IsDir (side c r n) := by
  intro d
  have := side_cases c r n d
  omega

theorem interior_side {r : ℤ} {n : I3} : Interior c r n ↔ IsZero (side c r n) := by
  have key : ∀ d, (c.lo r d ≤ n d ∧ n d < c.hi r d) ↔ side c r n d = 0 := by
    intro d
    have := side_cases c r n d
    omega
  unfold Interior IsZero
  constructor
  · intro h
    exact ⟨(key 0).1 (h 0), (key 1).1 (h 1), (key 2).1 (h 2)⟩
  · rintro ⟨h0, h1, h2⟩ d
    match d with
    | 0 => exact (key 0).2 h0
    | 1 => exact (key 1).2 h1
    | 2 => exact (key 2).2 h2

/-- a ghost cell is a cell of the neighbour -/
theorem renumber_interior (hc : Fits c size) {r q : ℤ} (hr : 0 ≤ r ∧ r < size) {n : I3} (hs : Stored c r n)
    (hn : neighbour c r (side c r n) = some q) : Interior c q (renumber c r q (side c r n) n) := by
  have hd := side_dir c r n
  obtain ⟨hq, hb⟩ := neighbour_back hc.layout hr hd hn
  intro d
  have h1 := hd d; have h2 := hc.ibn d; have h3 := hc.room r hr d; have h4 := hc.room q hq d
  have h5 := fun h0 => hc.aligned r q d hr hq (neighbour_same hc.layout hr hd hn (d := d) h0)
  have h6 := hs d
  have h8 := side_cases c r n d
  have h7 : renumber c r q (side c r n) n d = if side c r n d = 1 then c.lo q d + (n d - c.hi r d)
    else if side c r n d = -1 then c.hi q d - (c.lo r d - n d) else c.lo q d + (n d - c.lo r d) := rfl
  generalize renumber c r q (side c r n) n d = y at *
  have : side c r n d = -1 ∨ side c r n d = 0 ∨ side c r n d = 1 := by omega
  rcases this with e | e | e <;> simp [e] at h7 <;> omega

theorem renumber_back {dir : I3} (hd : IsDir dir) (r q : ℤ) (n : I3) :
    renumber c q r (fun d => -dir d) (renumber c r q dir n) = n := by
  funext d
  have h1 := hd d
  have : dir d = -1 ∨ dir d = 0 ∨ dir d = 1 := by omega
  rcases this with e | e | e <;> simp [renumber, e]

/-- a cell that no direction changes -/
theorem foldl_same {α β : Type} (f : (α → β) → I3 → α → β) (a : α) (l : List I3) (h : ∀ dir ∈ l, ∀ F, f F dir a = F a)
    (F : α → β) : l.foldl f F a = F a := by
  induction l generalizing F with
  | nil => rfl
  | cons x l ih =>
    rw [List.foldl_cons, ih (fun d hd => h d (List.mem_cons_of_mem _ hd)), h x List.mem_cons_self]

/-- a cell that one direction sets -/
theorem foldl_one {α β : Type} (f : (α → β) → I3 → α → β) (a : α) (v : β) {dir : I3} (l : List I3) (hl : dir ∈ l)
    (h : ∀ dir' ∈ l, dir' ≠ dir → ∀ F, f F dir' a = F a) (hv : ∀ F, f F dir a = v) (F : α → β) : l.foldl f F a = v := by
  induction l generalizing F with
  | nil => simp at hl
  | cons x l ih =>
    rw [List.foldl_cons]
    by_cases hm : dir ∈ l
    · exact ih hm (fun d hd => h d (List.mem_cons_of_mem _ hd)) _
    · have : dir = x := by simpa [hm] using hl
      subst this
      rw [foldl_same f a l fun d hd => h d (List.mem_cons_of_mem _ hd) fun e => hm (e ▸ hd)]
      exact hv F

/-- a cell to which the directions add -/
theorem foldl_add {α β : Type} [AddCommMonoid β] (f : (α → β) → I3 → α → β) (a : α) (g : I3 → β) (l : List I3)
    (h : ∀ dir ∈ l, ∀ F, f F dir a = F a + g dir) (F : α → β) : l.foldl f F a = F a + (l.map g).sum := by
  induction l generalizing F with
  | nil => simp
  | cons x l ih =>
    rw [List.foldl_cons, ih (fun d hd => h d (List.mem_cons_of_mem _ hd)), h x List.mem_cons_self, List.map_cons, List.sum_cons,
      add_assoc]

end Psc.DdcSimple
