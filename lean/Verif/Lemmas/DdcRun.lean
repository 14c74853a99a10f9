import Verif.Lemmas.Ddc
import Mathlib.Algebra.BigOperators.Group.List.Basic

namespace Psc.Ddc

open Domain Fields Props

variable {K : Type}

/-! ## cells -/

theorem mem_cells {mb me : ℕ} {b : Box} {c : ℕ × I3} :
    c ∈ cells mb me b ↔ (mb ≤ c.1 ∧ c.1 < me) ∧ ∀ d, b.ilo d ≤ c.2 d ∧ c.2 d < b.ihi d := by
  obtain ⟨m, n⟩ := c
  simp only [cells, List.mem_flatMap, List.mem_map, mem_rng, List.mem_range'_1, Prod.mk.injEq]
  constructor
  · rintro ⟨m', hm, z, hz, y, hy, x, hx, rfl, rfl⟩
    refine ⟨by omega, fun d => ?_⟩
    fin_cases d
    · exact hx
    · exact hy
    · exact hz
  · rintro ⟨hm, hn⟩
    refine ⟨m, by omega, n 2, hn 2, n 1, hn 1, n 0, hn 0, rfl, ?_⟩
    funext d; fin_cases d <;> rfl

theorem length_rng (lo hi : ℤ) : (rng lo hi).length = (hi - lo).toNat := by simp [rng]

theorem length_cells (mb me : ℕ) (b : Box) :
    (cells mb me b).length =
      (me - mb) * ((b.ihi 2 - b.ilo 2).toNat * ((b.ihi 1 - b.ilo 1).toNat * (b.ihi 0 - b.ilo 0).toNat)) := by
  simp [cells, List.length_flatMap, length_rng]

/-- a box that is not inside out -/
def Box.Ok (b : Box) : Prop := ∀ d, b.ilo d ≤ b.ihi d

theorem length_cells_len (mb me : ℕ) (hm : mb ≤ me) (b : Box) (hb : b.Ok) :
    (cells mb me b).length = (b.len * ((me : ℤ) - mb)).toNat := by
  rw [length_cells]
  have h0 := hb 0; have h1 := hb 1; have h2 := hb 2
  obtain ⟨x, hx⟩ := Int.eq_ofNat_of_zero_le (show 0 ≤ b.ihi 0 - b.ilo 0 by omega)
  obtain ⟨y, hy⟩ := Int.eq_ofNat_of_zero_le (show 0 ≤ b.ihi 1 - b.ilo 1 by omega)
  obtain ⟨z, hz⟩ := Int.eq_ofNat_of_zero_le (show 0 ≤ b.ihi 2 - b.ilo 2 by omega)
  obtain ⟨k, hk⟩ := Int.eq_ofNat_of_zero_le (show 0 ≤ (me : ℤ) - mb by omega)
  have hk' : me - mb = k := by omega
  unfold Box.len
  rw [hx, hy, hz, hk, hk']
  norm_cast
  simp only [Int.toNat_natCast]
  ring

/-- shift of a box -/
def Box.shift (b : Box) (s : I3) : Box := ⟨fun d => b.ilo d + s d, fun d => b.ihi d + s d⟩

theorem rng_shift (lo hi s : ℤ) : rng (lo + s) (hi + s) = (rng lo hi).map (· + s) := by
  unfold rng
  rw [show hi + s - (lo + s) = hi - lo by ring, List.map_map]
  refine List.map_congr_left fun n _ => ?_
  simp only [Function.comp_apply]; ring

theorem cells_shift (mb me : ℕ) (b : Box) (s : I3) :
    cells mb me (b.shift s) = (cells mb me b).map fun c => (c.1, fun d => c.2 d + s d) := by
  unfold cells Box.shift
  simp only [rng_shift, List.map_flatMap, List.flatMap_map, List.map_map]
  refine List.flatMap_congr fun m _ => List.flatMap_congr fun z _ => List.flatMap_congr fun y _ =>
    List.map_congr_left fun x _ => ?_
  simp only [Function.comp_apply, Prod.mk.injEq, true_and]
  funext d
  fin_cases d <;> rfl

/-! ## writes as events -/

/-- a write of value `val` into cell `cell` of patch `patch` -/
structure Ev (K : Type) where
  /-- patch -/
  patch : ℕ
  /-- component and cell -/
  cell : ℕ × I3
  /-- value -/
  val : K

/-- perform one write -/
def app (upd : K → K → K) (S : RankState K) (e : Ev K) : RankState K :=
  onPatch S e.patch fun F => wr upd F e.cell e.val

theorem app_apply (upd : K → K → K) (S : RankState K) (e : Ev K) (q : ℕ) (c : ℕ × I3) :
    app upd S e q c = if q = e.patch ∧ c = e.cell then upd (S q c) e.val else S q c := by
  unfold app onPatch wr
  by_cases h : q = e.patch
  · simp [h]
  · simp [h]

theorem onPatch_foldl (upd : K → K → K) (S : RankState K) (p : ℕ) (l : List ((ℕ × I3) × K)) :
    (onPatch S p fun F => l.foldl (fun F cv => wr upd F cv.1 cv.2) F) =
      (l.map fun cv => (⟨p, cv.1, cv.2⟩ : Ev K)).foldl (app upd) S := by
  induction l generalizing S with
  | nil => funext q; simp [onPatch]
  | cons a l ih =>
    rw [List.map_cons, List.foldl_cons, ← ih]
    funext q
    simp only [onPatch, app, List.foldl_cons]
    split_ifs <;> rfl

theorem onPatch_from_buf (upd : K → K → K) (mb me : ℕ) (S : RankState K) (p : ℕ) (b : Box) (buf : List K) :
    (onPatch S p fun F => from_buf upd mb me F b buf) =
      (((cells mb me b).zip buf).map fun cv => (⟨p, cv.1, cv.2⟩ : Ev K)).foldl (app upd) S :=
  onPatch_foldl upd S p _

/-- the writes on the receiver caused by a pair of matching entries, from sender state `T` -/
def evs (mb me : ℕ) (T : RankState K) (se re : Entry) : List (Ev K) :=
  ((cells mb me re.box).zip (to_buf mb me (T se.patch) se.box)).map fun cv => ⟨re.patch, cv.1, cv.2⟩

/-- matching boxes have equally many cells -/
def SameSize (se re : Entry) : Prop :=
  ∀ mb me, mb ≤ me → (cells mb me se.box).length = (cells mb me re.box).length ∧
    (cells mb me re.box).length = (re.box.len * ((me : ℤ) - mb)).toNat

theorem zip_append_left' {α β : Type} (l : List α) (a b : List β) (h : l.length = a.length) :
    l.zip (a ++ b) = l.zip a := by
  have := List.zip_append (l₁ := l) (r₁ := []) (l₂ := a) (r₂ := b) h
  simpa using this

theorem unpack_pack (upd : K → K → K) (mb me : ℕ) (hm : mb ≤ me) (T S : RankState K) (ses res : List Entry)
    (h : List.Forall₂ SameSize ses res) :
    unpack upd mb me res S (pack mb me ses T) =
      ((ses.zip res).flatMap fun sr => evs mb me T sr.1 sr.2).foldl (app upd) S := by
  unfold unpack pack
  induction h generalizing S with
  | nil => simp
  | @cons se re ses res hsr _ ih =>
    obtain ⟨h1, h2⟩ := hsr mb me hm
    simp only [List.flatMap_cons, List.foldl_cons, List.zip_cons_cons, List.foldl_append]
    have hlen : (to_buf mb me (T se.patch) se.box).length = (cells mb me re.box).length := by
      simp [to_buf, h1]
    rw [← h2, ← hlen, List.drop_left, onPatch_from_buf, zip_append_left' _ _ _ hlen.symm]
    exact ih _

theorem foldl_app_outside (upd : K → K → K) (l : List (Ev K)) (S : RankState K) (q : ℕ) (c : ℕ × I3)
    (h : ∀ e ∈ l, ¬ (q = e.patch ∧ c = e.cell)) : l.foldl (app upd) S q c = S q c := by
  induction l generalizing S with
  | nil => rfl
  | cons e l ih =>
    rw [List.foldl_cons, ih _ fun x hx => h x (List.mem_cons_of_mem _ hx), app_apply,
      if_neg (h e List.mem_cons_self)]

theorem mem_evs {mb me : ℕ} {T : RankState K} {se re : Entry} {e : Ev K} (h : e ∈ evs mb me T se re) :
    e.patch = re.patch ∧ e.cell ∈ cells mb me re.box := by
  simp only [evs, List.mem_map] at h
  obtain ⟨cv, hcv, rfl⟩ := h
  exact ⟨rfl, (List.of_mem_zip (a := cv.1) (b := cv.2) hcv).1⟩

/-- the local exchange writes the same values as if all were read at the start -/
theorem run_local_eq (upd : K → K → K) (mb me : ℕ) (S : RankState K) (ses res : List Entry)
    (hsize : List.Forall₂ SameSize ses res)
    (hpatch : ∀ sr ∈ ses.zip res, sr.1.nei_patch = sr.2.patch)
    (hempty : ∀ sr ∈ ses.zip res, (sr.1.box.ilo 0 = sr.1.box.ihi 0 ∨ sr.1.box.ilo 1 = sr.1.box.ihi 1 ∨
      sr.1.box.ilo 2 = sr.1.box.ihi 2) → cells mb me sr.2.box = [])
    (hdisj : ∀ se ∈ ses, ∀ re ∈ res, ∀ c ∈ cells mb me se.box, c ∉ cells mb me re.box) :
    run_local upd mb me ses res S =
      ((ses.zip res).flatMap fun sr => evs mb me S sr.1 sr.2).foldl (app upd) S := by
  unfold run_local
  have gen : ∀ (l : List (Entry × Entry)) (T : RankState K),
      (∀ sr ∈ l, sr.1.nei_patch = sr.2.patch) →
      (∀ sr ∈ l, (sr.1.box.ilo 0 = sr.1.box.ihi 0 ∨ sr.1.box.ilo 1 = sr.1.box.ihi 1 ∨
        sr.1.box.ilo 2 = sr.1.box.ihi 2) → cells mb me sr.2.box = []) →
      (∀ sr ∈ l, ∀ sr' ∈ l, ∀ c ∈ cells mb me sr.1.box, c ∉ cells mb me sr'.2.box) →
      (∀ sr ∈ l, ∀ c ∈ cells mb me sr.1.box, T sr.1.patch c = S sr.1.patch c) →
      l.foldl (fun S sr =>
        if sr.1.box.ilo 0 = sr.1.box.ihi 0 ∨ sr.1.box.ilo 1 = sr.1.box.ihi 1 ∨ sr.1.box.ilo 2 = sr.1.box.ihi 2
        then S
        else
          let buf := to_buf mb me (S sr.1.patch) sr.1.box
          onPatch S sr.1.nei_patch fun F => from_buf upd mb me F sr.2.box buf) T =
      (l.flatMap fun sr => evs mb me S sr.1 sr.2).foldl (app upd) T := by
    intro l
    induction l with
    | nil => intros; rfl
    | cons a l ih =>
      intro T h1 h2 h3 h4
      rw [List.foldl_cons, List.flatMap_cons, List.foldl_append]
      have step : (if a.1.box.ilo 0 = a.1.box.ihi 0 ∨ a.1.box.ilo 1 = a.1.box.ihi 1 ∨
            a.1.box.ilo 2 = a.1.box.ihi 2 then T
          else
            let buf := to_buf mb me (T a.1.patch) a.1.box
            onPatch T a.1.nei_patch fun F => from_buf upd mb me F a.2.box buf) =
          (evs mb me S a.1 a.2).foldl (app upd) T := by
        split_ifs with he
        · simp [evs, h2 a List.mem_cons_self he]
        · simp only
          rw [onPatch_from_buf, h1 a List.mem_cons_self, evs]
          have : to_buf mb me (T a.1.patch) a.1.box = to_buf mb me (S a.1.patch) a.1.box :=
            List.map_congr_left fun c hc => h4 a List.mem_cons_self c hc
          rw [this]
      rw [step]
      refine ih _ (fun x hx => h1 x (List.mem_cons_of_mem _ hx)) (fun x hx => h2 x (List.mem_cons_of_mem _ hx))
        (fun x hx y hy => h3 x (List.mem_cons_of_mem _ hx) y (List.mem_cons_of_mem _ hy)) ?_
      intro sr hsr c hc
      rw [foldl_app_outside, h4 sr (List.mem_cons_of_mem _ hsr) c hc]
      rintro e he ⟨_, rfl⟩
      exact h3 sr (List.mem_cons_of_mem _ hsr) a List.mem_cons_self _ hc (mem_evs he).2
  refine gen _ _ hpatch hempty ?_ fun _ _ _ _ => rfl
  intro sr hsr sr' hsr' c hc
  exact hdisj sr.1 (List.of_mem_zip (a := sr.1) (b := sr.2) hsr).1 sr'.2
    (List.of_mem_zip (a := sr'.1) (b := sr'.2) hsr').2 c hc

/-! ## the whole exchange -/

/-- the writes on rank `me` caused by rank `r` -/
def evsFrom (sreg rreg : I3 → Box) (D : Decomp) (mb me : ℕ) (σ : ℕ → RankState K) (rank r : ℕ) : List (Ev K) :=
  ((entries sreg D r rank).zip (rlist rreg D rank r)).flatMap fun sr => evs mb me (σ r) sr.1 sr.2

/-- all writes on rank `rank`, local exchange first -/
def evsAll (sreg rreg : I3 → Box) (D : Decomp) (mb me : ℕ) (σ : ℕ → RankState K) (rank : ℕ) : List (Ev K) :=
  evsFrom sreg rreg D mb me σ rank rank ++
    ((List.range D.counts.length).filter (· ≠ rank)).flatMap (evsFrom sreg rreg D mb me σ rank)

/-- what the exchange needs from the two regions -/
structure Regs (sreg rreg : I3 → Box) (ldims : I3) : Prop where
  ok : ∀ dir, IsDir dir → ¬ IsZero dir → (sreg dir).Ok
  shift : ∀ dir, IsDir dir → ¬ IsZero dir →
    rreg (fun d => -dir d) = (sreg dir).shift fun d => -(dir d * ldims d)
  disj : ∀ dir dir', IsDir dir → IsDir dir' → ¬ IsZero dir → ¬ IsZero dir' → ∀ n : I3,
    (∀ d, (sreg dir).ilo d ≤ n d ∧ n d < (sreg dir).ihi d) →
    ¬ ∀ d, (rreg dir').ilo d ≤ n d ∧ n d < (rreg dir').ihi d

theorem Box.Ok.shift {b : Box} (h : b.Ok) (s : I3) : (b.shift s).Ok := fun d => by
  have := h d; simp only [Box.shift]; omega

theorem sameSize_of_match {sreg rreg : I3 → Box} {ldims : I3} (hR : Regs sreg rreg ldims) {D : Decomp}
    {r me : ℕ} {se re : Entry} (h : Match sreg rreg D r me se re) : SameSize se re := by
  obtain ⟨p, q, dir, _, hd, hz, _, rfl, rfl⟩ := h
  intro mb m hm
  simp only
  rw [hR.shift dir hd hz]
  refine ⟨by rw [cells_shift, List.length_map], ?_⟩
  exact length_cells_len mb m hm _ ((hR.ok dir hd hz).shift _)

theorem forall₂_zip {α β : Type} {R : α → β → Prop} {l : List α} {l' : List β} (h : List.Forall₂ R l l')
    {x : α × β} (hx : x ∈ l.zip l') : R x.1 x.2 := by
  induction h with
  | nil => simp at hx
  | cons h _ ih =>
    rw [List.zip_cons_cons, List.mem_cons] at hx
    rcases hx with rfl | hx
    · exact h
    · exact ih hx

theorem mem_zip_left {α β : Type} {R : α → β → Prop} {l : List α} {l' : List β} (h : List.Forall₂ R l l')
    {a : α} (ha : a ∈ l) : ∃ b, R a b := by
  induction h with
  | nil => simp at ha
  | cons h _ ih =>
    rw [List.mem_cons] at ha
    rcases ha with rfl | ha
    · exact ⟨_, h⟩
    · exact ih ha

theorem mem_zip_right {α β : Type} {R : α → β → Prop} {l : List α} {l' : List β} (h : List.Forall₂ R l l')
    {b : β} (hb : b ∈ l') : ∃ a, R a b := by
  induction h with
  | nil => simp at hb
  | cons h _ ih =>
    rw [List.mem_cons] at hb
    rcases hb with rfl | hb
    · exact ⟨_, h⟩
    · exact ih hb

/-- The exchange on one rank performs exactly the writes `evsAll`, with values read at the start. -/
theorem run_eq (upd : K → K → K) {sreg rreg : I3 → Box} {ldims : I3} (hR : Regs sreg rreg ldims) {D : Decomp}
    (hD : D.Valid) (mb me : ℕ) (hm : mb ≤ me) (σ : ℕ → RankState K) (rank : ℕ) :
    run upd sreg rreg D mb me σ rank =
      some ((evsAll sreg rreg D mb me σ rank).foldl (app upd) (σ rank)) := by
  have hmatch : ∀ r, List.Forall₂ (Match sreg rreg D r rank) (entries sreg D r rank) (rlist rreg D rank r) :=
    fun r => matched sreg rreg D r rank
  have hss : ∀ r, List.Forall₂ SameSize (entries sreg D r rank) (rlist rreg D rank r) :=
    fun r => (hmatch r).imp fun _ _ h => sameSize_of_match hR h
  have hloc : run_local upd mb me (entries sreg D rank rank) (rlist rreg D rank rank) (σ rank) =
      (evsFrom sreg rreg D mb me σ rank rank).foldl (app upd) (σ rank) := by
    refine run_local_eq upd mb me (σ rank) _ _ (hss rank) ?_ ?_ ?_
    · intro sr hsr
      obtain ⟨p, q, dir, _, _, _, _, h1, h2⟩ := forall₂_zip (hmatch rank) hsr
      rw [h1, h2]
    · intro sr hsr he
      obtain ⟨p, q, dir, _, hd, hz, _, h1, h2⟩ := forall₂_zip (hmatch rank) hsr
      rw [h1] at he
      rw [h2]
      simp only at he ⊢
      rw [hR.shift dir hd hz, cells_shift, List.map_eq_nil_iff, ← List.length_eq_zero_iff, length_cells]
      rcases he with h | h | h <;> simp [h]
    · intro se hse re hre c hc hc'
      obtain ⟨_, p, q, dir, _, hd, hz, _, h1, _⟩ := mem_zip_left (hmatch rank) hse
      obtain ⟨_, p', q', dir', _, hd', hz', _, _, h2⟩ := mem_zip_right (hmatch rank) hre
      rw [h1] at hc
      rw [h2] at hc'
      refine hR.disj dir (fun d => -dir' d) hd (isDir_neg hd') hz (fun h => hz' (IsZero.neg_iff.1 h)) c.2
        (mem_cells.1 hc).2 (mem_cells.1 hc').2
  unfold run
  rw [recv_entries_eq hD]
  simp only [Option.bind_eq_bind, Option.bind_some]
  rw [hloc]
  have gen : ∀ (l : List ℕ) (S : RankState K),
      l.foldlM (fun S r => if r ≠ rank then (recv_entries rreg D rank r).bind fun re =>
          pure (unpack upd mb me re S (pack mb me (entries sreg D r rank) (σ r))) else pure S) S =
        some (((l.filter (· ≠ rank)).flatMap (evsFrom sreg rreg D mb me σ rank)).foldl (app upd) S) := by
    intro l
    induction l with
    | nil => intro S; rfl
    | cons r l ih =>
      intro S
      rw [List.foldlM_cons]
      by_cases hr : r = rank
      · subst hr
        simp only [ne_eq, not_true_eq_false, if_false]
        rw [List.filter_cons_of_neg (by simp)]
        exact ih S
      · simp only [ne_eq, hr, not_false_eq_true, if_true]
        rw [List.filter_cons_of_pos (by simpa using hr), recv_entries_eq hD]
        simp only [Option.bind_some]
        rw [unpack_pack upd mb me hm _ _ _ _ (hss r), List.flatMap_cons, List.foldl_append]
        exact ih _
  have := gen (List.range D.counts.length) ((evsFrom sreg rreg D mb me σ rank rank).foldl (app upd) (σ rank))
  rw [evsAll, List.foldl_append]
  exact this

/-- explicit form of the writes from rank `r` -/
theorem evsFrom_eq {sreg rreg : I3 → Box} {ldims : I3} (hR : Regs sreg rreg ldims) {D : Decomp} (mb me : ℕ)
    (σ : ℕ → RankState K) (rank r : ℕ) :
    evsFrom sreg rreg D mb me σ rank r =
      (List.range (D.nr_patches r)).flatMap fun p => dirs.flatMap fun dir =>
        if IsZero dir then [] else
        match D.nei r p dir with
        | some (r', q) => if r' = rank then
            (cells mb me (sreg dir)).map fun c => ⟨q, (c.1, fun d => c.2 d + -(dir d * ldims d)), σ r p c⟩
          else []
        | none => [] := by
  unfold evsFrom
  rw [entries_eq, rlist]
  have zipFlat : ∀ (l : List ℕ) (f g : ℕ → List Entry), (∀ p ∈ l, (f p).length = (g p).length) →
      (l.flatMap f).zip (l.flatMap g) = l.flatMap fun p => (f p).zip (g p) := by
    intro l f g h
    induction l with
    | nil => rfl
    | cons a l ih =>
      rw [List.flatMap_cons, List.flatMap_cons, List.flatMap_cons, List.zip_append (h a List.mem_cons_self),
        ih fun p hp => h p (List.mem_cons_of_mem _ hp)]
  have hlen : ∀ p, (dirs.filterMap (ent sreg D r rank p)).length = (dirs.filterMap (rent rreg D rank r p)).length := by
    intro p
    refine List.Forall₂.length_eq (R := fun _ _ => True) (forall₂_filterMap _ _ _ _ fun dir _ => ?_)
    by_cases hz : IsZero dir
    · left
      refine ⟨?_, by simp [rent, hz]⟩
      cases h : ent sreg D r rank p dir with
      | none => rfl
      | some e => exact absurd hz (ent_eq_some.1 h).1
    · cases h : ent sreg D r rank p dir with
      | some e =>
        obtain ⟨_, q, hn, rfl⟩ := ent_eq_some.1 h
        exact Or.inr ⟨_, _, rfl, rent_eq_some.2 ⟨hz, q, hn, rfl⟩, trivial⟩
      | none =>
        left
        refine ⟨rfl, ?_⟩
        cases h' : rent rreg D rank r p dir with
        | none => rfl
        | some e =>
          obtain ⟨_, q, hn, rfl⟩ := rent_eq_some.1 h'
          rw [ent_eq_some.2 ⟨hz, q, hn, rfl⟩] at h
          exact absurd h (by simp)
  rw [zipFlat _ _ _ fun p _ => hlen p, List.flatMap_assoc]
  refine List.flatMap_congr fun p _ => ?_
  have inner : ∀ l : List I3, (∀ d ∈ l, IsDir d) →
      ((l.filterMap (ent sreg D r rank p)).zip (l.filterMap (rent rreg D rank r p))).flatMap
        (fun sr => evs mb me (σ r) sr.1 sr.2) =
      l.flatMap fun dir => if IsZero dir then [] else
        match D.nei r p dir with
        | some (r', q) => if r' = rank then
            (cells mb me (sreg dir)).map fun c => ⟨q, (c.1, fun d => c.2 d + -(dir d * ldims d)), σ r p c⟩
          else []
        | none => [] := by
    intro l
    induction l with
    | nil => intro _; rfl
    | cons dir l ih =>
      intro hd
      have ih' := ih fun d h => hd d (List.mem_cons_of_mem _ h)
      rw [List.flatMap_cons, ← ih']
      cases h : ent sreg D r rank p dir with
      | some e =>
        obtain ⟨hz, q, hn, rfl⟩ := ent_eq_some.1 h
        have h' : rent rreg D rank r p dir = some _ := rent_eq_some.2 ⟨hz, q, hn, rfl⟩
        rw [List.filterMap_cons_some h, List.filterMap_cons_some h', List.zip_cons_cons, List.flatMap_cons]
        congr 1
        simp only [hz, if_false, hn, if_true]
        unfold evs to_buf
        simp only
        rw [hR.shift dir (hd dir List.mem_cons_self) hz, cells_shift, List.zip_map', List.map_map]
        rfl
      | none =>
        have h' : rent rreg D rank r p dir = none := by
          cases h' : rent rreg D rank r p dir with
          | none => rfl
          | some e =>
            obtain ⟨hz, q, hn, rfl⟩ := rent_eq_some.1 h'
            rw [ent_eq_some.2 ⟨hz, q, hn, rfl⟩] at h
            exact absurd h (by simp)
        rw [List.filterMap_cons_none h, List.filterMap_cons_none h']
        have : (if IsZero dir then ([] : List (Ev K)) else
          match D.nei r p dir with
          | some (r', q) => if r' = rank then
              (cells mb me (sreg dir)).map fun c => ⟨q, (c.1, fun d => c.2 d + -(dir d * ldims d)), σ r p c⟩
            else []
          | none => []) = [] := by
          split_ifs with hz
          · rfl
          · cases hn : D.nei r p dir with
            | none => rfl
            | some rq =>
              obtain ⟨r', q⟩ := rq
              simp only
              split_ifs with hr
              · subst hr
                rw [ent_eq_some.2 ⟨hz, q, hn, rfl⟩] at h
                exact absurd h (by simp)
              · rfl
        rw [this, List.nil_append]
  exact inner dirs fun d h => mem_dirs.1 h

end Psc.Ddc
