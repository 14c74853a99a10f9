import Verif.Lemmas.CudaPicExch
import Verif.Lemmas.CudaBndRun
import Verif.Props.CudaFlds

/-!
# Lemmas: fields and ghost exchange in a run on the GPU, and the run
-/

namespace Psc.CudaPic

open Domain Ddc FieldStep
open Cuda CudaFlds CudaBnd
open Spec.CudaPic Spec.CudaFlds Spec.CudaBnd

variable {X : Setup} {C : Call → Prop}

/-! ## cached maps -/

theorem same_of (hC : Distinct C) {k : Call} (hk : C k) :
    ∀ k', C k' → k'.add = k.add → k'.gen = k.gen → k'.key = k.key → k' = k := by
  intro k2 h2 ha hg hkey
  have a1 := (hC.ok k hk).comps; have a2 := (hC.ok k2 h2).comps
  have b1 := hC.nc k hk; have b2 := hC.nc k2 h2
  have c := hC.gen k2 k h2 hk hg
  have d := hC.ibn k2 k h2 hk hg
  unfold Call.key at hkey
  have e1 : k2.nc = k.nc := by omega
  have e2 : k2.me = k.me := by omega
  have e3 : k2.mb = k.mb := by omega
  have d' := d e1
  clear d
  cases k; cases k2
  simp only at ha hg e1 e2 e3 c d'
  subst ha hg e1 e2 e3 c d'
  rfl

theorem cache_inv (hC : Distinct C) {r : ℕ} {h : Cache} (hh : HasCache C r h) : CudaBnd.Inv C r h := by
  obtain ⟨gen, l, h1, h2⟩ := hh
  obtain ⟨h', h3, h4⟩ := after_inv (P := C) r gen l fun k hk => ⟨hC.ok k (h2 k hk), h2 k hk, same_of hC (h2 k hk)⟩
  rw [h1, Option.some.injEq] at h3
  rwa [h3]

theorem cache_call (hC : Distinct C) {r : ℕ} {h : Cache} (hh : HasCache C r h) {k : Call} (hk : C k) :
    ∃ h', getMaps k r h = some (fresh k r, h') ∧ HasCache C r h' := by
  obtain ⟨h', h1, -⟩ := getMaps_inv (hC.ok k hk) hk (same_of hC hk) (cache_inv hC hh)
  refine ⟨h', h1, ?_⟩
  obtain ⟨gen, l, h2, h3⟩ := hh
  refine ⟨gen, l ++ [.call k], ?_, fun k' hk' => ?_⟩
  · unfold CudaBnd.after at h2 ⊢
    rw [List.foldlM_append, h2]
    simp only [Option.bind_eq_bind, Option.bind_some, List.foldlM_cons, List.foldlM_nil]
    unfold CudaBnd.step
    dsimp only
    rw [h1]
    rfl
  · rcases List.mem_append.1 hk' with h | h
    · exact h3 k' h
    · rw [List.mem_singleton, Op.call.injEq] at h
      rw [h]
      exact hk

theorem cache_ops (hC : Distinct C) {r : ℕ} {h : Cache} (hh : HasCache C r h) {ops : List Op} (ho : ∀ k, Op.call k ∈ ops → C k) :
    ∃ h', ops.foldlM (CudaBnd.step r) h = some h' ∧ HasCache C r h' := by
  obtain ⟨gen, l, h2, h3⟩ := hh
  have hall : ∀ k, Op.call k ∈ l ++ ops → C k := fun k hk => by
    rcases List.mem_append.1 hk with h | h
    · exact h3 k h
    · exact ho k h
  obtain ⟨h', h4, -⟩ := after_inv (P := C) r gen (l ++ ops) fun k hk => ⟨hC.ok k (hall k hk), hall k hk, same_of hC (hall k hk)⟩
  refine ⟨h', ?_, gen, _, h4, hall⟩
  unfold CudaBnd.after at h2 h4
  rw [List.foldlM_append, h2] at h4
  exact h4

/-! ## sequences of operations -/

theorem does_nil {γ : State} {Q : State → Prop} (h : Q γ) : Does (Seq []) γ Q := by
  refine ⟨⟨_, .nil γ⟩, fun o ho => ?_⟩
  cases ho
  exact ⟨γ, rfl, h⟩

theorem does_cons {R : State → Option State → Prop} {l : List (State → Option State → Prop)} {γ : State} {Q Q' : State → Prop}
    (h : Does R γ Q) (h' : ∀ γ', Q γ' → Does (Seq l) γ' Q') : Does (Seq (R :: l)) γ Q' := by
  obtain ⟨⟨o, ho⟩, h2⟩ := h
  obtain ⟨γ', rfl, hq⟩ := h2 o ho
  obtain ⟨⟨o', ho'⟩, -⟩ := h' γ' hq
  refine ⟨⟨o', .cons R l γ γ' o' ho ho'⟩, fun o'' hs => ?_⟩
  cases hs with
  | fail _ _ _ h =>
    obtain ⟨_, hn, -⟩ := h2 none h
    exact absurd hn.symm (Option.some_ne_none _)
  | cons _ _ _ γ₁ _ h hs =>
    obtain ⟨γ₂, e, hq'⟩ := h2 _ h
    rw [Option.some.injEq] at e
    subst e
    exact (h' _ hq').2 _ hs

theorem does_append {l l' : List (State → Option State → Prop)} {γ : State} {Q Q' : State → Prop}
    (h : Does (Seq l) γ Q) (h' : ∀ γ', Q γ' → Does (Seq l') γ' Q') : Does (Seq (l ++ l')) γ Q' := by
  have fwd : ∀ l γ o, Seq l γ o → ∀ γ₁, o = some γ₁ → ∀ o', Seq l' γ₁ o' → Seq (l ++ l') γ o' := by
    intro l γ o hs
    induction hs with
    | nil γ => intro γ₁ e o' ho'; rw [Option.some.injEq] at e; subst e; exact ho'
    | fail R l γ h => intro γ₁ e; exact absurd e.symm (Option.some_ne_none _)
    | cons R l γ γ' o h hs ih => intro γ₁ e o' ho'; exact .cons R _ γ γ' o' h (ih γ₁ e o' ho')
  have bwd : ∀ l γ o, Seq (l ++ l') γ o → Seq l γ none ∨ ∃ γ₁, Seq l γ (some γ₁) ∧ Seq l' γ₁ o := by
    intro l
    induction l with
    | nil => intro γ o hs; exact .inr ⟨γ, .nil γ, hs⟩
    | cons R l ih =>
      intro γ o hs
      cases hs with
      | fail _ _ _ h => exact .inl (.fail R l γ h)
      | cons _ _ _ γ₁ _ h hs =>
        rcases ih γ₁ o hs with h1 | ⟨γ₂, h1, h2⟩
        · exact .inl (.cons R l γ γ₁ none h h1)
        · exact .inr ⟨γ₂, .cons R l γ γ₁ _ h h1, h2⟩
  obtain ⟨⟨o, ho⟩, h2⟩ := h
  obtain ⟨γ', rfl, hq⟩ := h2 o ho
  obtain ⟨⟨o', ho'⟩, -⟩ := h' γ' hq
  refine ⟨⟨o', fwd l γ _ ho γ' rfl o' ho'⟩, fun o'' hs => ?_⟩
  rcases bwd l γ o'' hs with h3 | ⟨γ₁, h3, h4⟩
  · obtain ⟨_, hn, -⟩ := h2 none h3
    exact absurd hn.symm (Option.some_ne_none _)
  · obtain ⟨γ₂, e, hq'⟩ := h2 _ h3
    rw [Option.some.injEq] at e
    subst e
    exact (h' _ hq').2 _ h4

theorem does_each {R : ℕ → Rank → Option Rank → Prop} {γ : State} {Q : ℕ → Rank → Prop}
    (h : ∀ r < X.size, (∃ o, R r (γ r) o) ∧ ∀ o, R r (γ r) o → ∃ s', o = some s' ∧ Q r s') :
    Does (Each X R) γ fun γ' => ∀ r < X.size, Q r (γ' r) := by
  have h1 : ∀ r, ∃ s', (r < X.size → R r (γ r) (some s')) ∧ (X.size ≤ r → s' = γ r) := by
    intro r
    by_cases hr : r < X.size
    · obtain ⟨⟨o, ho⟩, h2⟩ := h r hr
      obtain ⟨s', rfl, -⟩ := h2 o ho
      exact ⟨s', fun _ => ho, fun h => absurd hr (not_lt.2 h)⟩
    · exact ⟨γ r, fun h => absurd h hr, fun _ => rfl⟩
  choose s' h1 h2 using h1
  refine ⟨⟨_, .all γ s' h1 h2⟩, fun o ho => ?_⟩
  cases ho with
  | all γ' h3 h4 =>
    refine ⟨γ', rfl, fun r hr => ?_⟩
    obtain ⟨s, e, hq⟩ := (h r hr).2 _ (h3 r hr)
    rw [Option.some.injEq] at e
    rwa [e]
  | fail r hr h3 =>
    obtain ⟨s, e, -⟩ := (h r hr).2 _ h3
    exact absurd e.symm (Option.some_ne_none _)

theorem does_mono {R : State → Option State → Prop} {γ : State} {Q Q' : State → Prop} (h : Does R γ Q)
    (h' : ∀ γ', Q γ' → Q' γ') : Does R γ Q' := by
  refine ⟨h.1, fun o ho => ?_⟩
  obtain ⟨γ', e, hq⟩ := h.2 o ho
  exact ⟨γ', e, h' γ' hq⟩

/-! ## fields -/

theorem fieldR_ok {L : Layout} {ls : List (List (Stmt ℝ))} {s : Rank} {S' : RankState ℝ} (h : Gives [] ls L s.mem S') :
    (∃ o, FieldR (some ls) s o) ∧ ∀ o, FieldR (some ls) s o →
      ∃ s', o = some s' ∧ s'.prts = s.prts ∧ s'.cache = s.cache ∧ Stores L S' s'.mem := by
  obtain ⟨-, ⟨M', h1⟩, h2⟩ := h
  refine ⟨⟨_, _, h1, rfl⟩, ?_⟩
  rintro o ⟨o', ho, rfl⟩
  obtain ⟨M, rfl, hM⟩ := h2 o' ho
  exact ⟨_, rfl, rfl, rfl, hM⟩

theorem inv_false (hX : Fits X C) (d : Fin 3) : X.S.g.inv d = false := by
  have h : X.S.cfg.inv d = false := by
    rw [hX.cfg]
    fin_cases d <;> rfl
  exact h

theorem pushH_ok (hX : Fits X C) (fac : ℝ) {γ : State} {prts : ℕ → ℕ → List Push.Prt} {σ : Glob ℝ} (h : Holds X C γ ⟨prts, σ⟩) :
    Does (Each X (pushHR X fac)) γ fun γ' => Holds X C γ' ⟨prts, pushH X.S.g fac σ⟩ := by
  refine does_each (Q := fun r s => HasPrts X r s.prts (prts r) ∧ Stores (X.lay r) (pushH X.S.g fac σ r) s.mem ∧
    HasCache C r s.cache) fun r hr => ?_
  obtain ⟨h1, h2, h3⟩ := h r hr
  have h4 := (Props.C73_push_xyz X.S.g (X.lay r) (inv_false hX) rfl hX.ibn rfl fac σ r (γ r).mem h2).2
  obtain ⟨h5, h6⟩ := fieldR_ok h4
  refine ⟨h5, fun o ho => ?_⟩
  obtain ⟨s', e, e1, e2, e3⟩ := h6 o ho
  refine ⟨s', e, ?_, e3, ?_⟩
  · rw [e1]; exact h1
  · rw [e2]; exact h3

theorem pushE_ok (hX : Fits X C) (fac : ℝ) {γ : State} {prts : ℕ → ℕ → List Push.Prt} {σ : Glob ℝ} (h : Holds X C γ ⟨prts, σ⟩) :
    Does (Each X (pushER X fac)) γ fun γ' => Holds X C γ' ⟨prts, pushE X.S.g fac σ⟩ := by
  refine does_each (Q := fun r s => HasPrts X r s.prts (prts r) ∧ Stores (X.lay r) (pushE X.S.g fac σ r) s.mem ∧
    HasCache C r s.cache) fun r hr => ?_
  obtain ⟨h1, h2, h3⟩ := h r hr
  obtain ⟨ls, hls, h4⟩ := (Props.C73_push_xyz X.S.g (X.lay r) (inv_false hX) rfl hX.ibn rfl fac σ r (γ r).mem h2).1
  obtain ⟨h5, h6⟩ := fieldR_ok h4
  unfold pushER
  rw [hls]
  refine ⟨h5, fun o ho => ?_⟩
  obtain ⟨s', e, e1, e2, e3⟩ := h6 o ho
  refine ⟨s', e, ?_, e3, ?_⟩
  · rw [e1]; exact h1
  · rw [e2]; exact h3

/-! ## ghost exchange -/

/-- what the CPU does in the call -/
noncomputable def cpuAll (X : Setup) (add : Bool) (mb : ℕ) (σ : Glob ℝ) : Option (Glob ℝ) :=
  if add then addAll X.S.c mb (mb + 3) σ else fillAll X.S.c mb (mb + 3) σ

theorem collective_some {K : Type} {n : ℕ} {f : ℕ → Option (RankState K)} {g : ℕ → RankState K} (h : ∀ r, f r = some (g r)) (σ : Glob K) :
    collective n f σ = some g := by
  unfold collective
  rw [if_pos fun r _ => by rw [h r]; rfl]
  congr 1
  funext r
  rw [h r]
  rfl

theorem cpuAll_eq {add : Bool} {mb : ℕ} (hk : Call.Ok (X.call add mb (mb + 3))) (σ : Glob ℝ) :
    ∃ σ', cpuAll X add mb σ = some σ' ∧ ∀ r, cpu (X.call add mb (mb + 3)) σ r = some (σ' r) := by
  refine ⟨_, ?_, cpu_eq hk σ⟩
  cases add
  · exact collective_some (fun r => cpu_eq hk σ r) σ
  · exact collective_some (fun r => cpu_eq hk σ r) σ

theorem bnd_ok (hX : Fits X C) {add : Bool} {mb : ℕ} (hk : C (X.call add mb (mb + 3))) {γ : State}
    {prts : ℕ → ℕ → List Push.Prt} {σ : Glob ℝ} (h : Holds X C γ ⟨prts, σ⟩) :
    ∃ σ', cpuAll X add mb σ = some σ' ∧
      Does (BndR X (X.call add mb (mb + 3))) γ fun γ' => Holds X C γ' ⟨prts, σ'⟩ := by
  set k := X.call add mb (mb + 3) with hkd
  have hok := hX.calls.ok k hk
  obtain ⟨σ', h1, h2⟩ := cpuAll_eq hok σ
  refine ⟨σ', h1, ?_⟩
  have hM : ∀ r < k.c.D.counts.length, Stores (k.layout r) (σ r) ((fun r => (γ r).mem) r) := fun r hr => (h r hr).2.1
  have hc : ∀ r < X.size, ∃ h', getMaps k r (γ r).cache = some (fresh k r, h') ∧ HasCache C r h' := fun r hr =>
    cache_call hX.calls (h r hr).2.2 hk
  have hR : Right ℝ k fun r => (γ r).cache := right_of_fresh hok fun r hr => by
    obtain ⟨h', e, -⟩ := hc r hr
    exact ⟨h', e⟩
  have ho : ∀ (ms : ℕ → Maps) (hs : ℕ → Cache), (∀ r < X.size, getMaps k r (γ r).cache = some (ms r, hs r)) →
      ∀ r < X.size, (∃ M, Outcome (updOf k) (writes ms (fun r => (γ r).mem) r) (γ r).mem (some M)) ∧
        ∀ o, Outcome (updOf k) (writes ms (fun r => (γ r).mem) r) (γ r).mem o → ∃ M', o = some M' ∧ Stores (X.lay r) (σ' r) M' := by
    intro ms hs hms r hr
    obtain ⟨ms', g1, -, S', g3, g4⟩ := hR σ (fun r => (γ r).mem) hM r hr
    have hmm : ∀ r < k.c.D.counts.length, ms r = fresh k r := fun r hr => by
      obtain ⟨h', e, -⟩ := hc r hr
      have := hms r hr
      rw [e, Option.some.injEq, Prod.mk.injEq] at this
      exact this.1.symm
    have hmm' : ∀ r < k.c.D.counts.length, ms' r = fresh k r := fun r hr => by
      obtain ⟨h', e, -⟩ := hc r hr
      obtain ⟨h'', e'⟩ := g1 r hr
      rw [e, Option.some.injEq, Prod.mk.injEq] at e'
      exact e'.1.symm
    have hw : writes ms (fun r => (γ r).mem) r = writes ms' (fun r => (γ r).mem) r :=
      (writes_eq hok hM hmm hr).trans (writes_eq hok hM hmm' hr).symm
    rw [h2 r, Option.some.injEq] at g3
    subst g3
    rw [hw]
    have key : ∀ o, Outcome (updOf k) (writes ms' (fun r => (γ r).mem) r) (γ r).mem o → ∃ M', o = some M' ∧ Stores (X.lay r) (σ' r) M' :=
      fun o ho => g4 o ho
    refine ⟨?_, key⟩
    have hex : ∃ o, Outcome (updOf k) (writes ms' (fun r => (γ r).mem) r) (γ r).mem o := by
      rw [writes_eq hok hM hmm' hr]
      exact ⟨_, _, _, List.Perm.refl _, List.Perm.refl _, rfl⟩
    obtain ⟨o, ho⟩ := hex
    obtain ⟨M', rfl, -⟩ := key o ho
    exact ⟨M', ho⟩
  constructor
  · have hc' : ∀ r, ∃ h', r < X.size → getMaps k r (γ r).cache = some (fresh k r, h') := fun r => by
      by_cases hr : r < X.size
      · obtain ⟨h', e, -⟩ := hc r hr
        exact ⟨h', fun _ => e⟩
      · exact ⟨(γ r).cache, fun h => absurd h hr⟩
    choose hs hhs using hc'
    have hM' : ∀ r, ∃ M, r < X.size → Outcome (updOf k) (writes (fresh k) (fun r => (γ r).mem) r) (γ r).mem (some M) := fun r => by
      by_cases hr : r < X.size
      · obtain ⟨⟨M, e⟩, -⟩ := ho (fresh k) hs hhs r hr
        exact ⟨M, fun _ => e⟩
      · exact ⟨[], fun h => absurd h hr⟩
    choose M hM' using hM'
    exact ⟨_, .run γ (fun r => if r < X.size then ⟨(γ r).prts, M r, hs r⟩ else γ r) (fresh k) hs hhs M hM'
      (fun r hr => if_pos hr) fun r hr => if_neg (not_lt.2 hr)⟩
  · intro o hr
    cases hr with
    | maps r hr hn =>
      obtain ⟨h', e, -⟩ := hc r hr
      rw [hn] at e
      exact absurd e.symm (Option.some_ne_none _)
    | fail ms hs hms r hr hn =>
      obtain ⟨_, e, -⟩ := (ho ms hs hms r hr).2 _ hn
      exact absurd e.symm (Option.some_ne_none _)
    | run γ' ms hs hms M hM' hγ hγ' =>
      refine ⟨γ', rfl, fun r hr => ?_⟩
      rw [hγ r hr]
      refine ⟨(h r hr).1, ?_, ?_⟩
      · obtain ⟨M', e, hst⟩ := (ho ms hs hms r hr).2 _ (hM' r hr)
        rw [Option.some.injEq] at e
        subst e
        exact hst
      · obtain ⟨h', e, hh⟩ := hc r hr
        have := hms r hr
        rw [e, Option.some.injEq, Prod.mk.injEq] at this
        dsimp only
        rw [← this.2]
        exact hh

/-! ## a step -/

theorem own_call (hX : Fits X C) {add : Bool} {mb : ℕ} (h : (add, mb) ∈ [(true, JXI), (false, JXI), (false, EX), (false, HX)]) :
    C (X.call add mb (mb + 3)) := hX.own (add, mb) h

theorem call_ok (hX : Fits X C) : ∃ k, k = X.call true JXI (JXI + 3) ∧ Call.Ok k :=
  ⟨_, rfl, hX.calls.ok _ (own_call hX (by simp))⟩

/-- the fields after the push -/
noncomputable def withJ (X : Setup) (s : Pic.State) : Glob ℝ := fun r p mn =>
  if mn.1 < JXI + 3 then (Pic.pushPrts X.S s.prts s.flds).2 r p mn else s.flds r p mn

theorem others_ok (hX : Fits X C) {ops : List Op} (ho : ∀ k, Op.call k ∈ ops → C k) {γ : State} {s : Pic.State} (h : Holds X C γ s) :
    Does (Each X (Others ops)) γ fun γ' => Holds X C γ' s := by
  refine does_each (Q := fun r t => HasPrts X r t.prts (s.prts r) ∧ Stores (X.lay r) (s.flds r) t.mem ∧ HasCache C r t.cache)
    fun r hr => ?_
  obtain ⟨h1, h2, h3⟩ := h r hr
  obtain ⟨h', e, hh⟩ := cache_ops hX.calls h3 ho
  unfold Others
  rw [e]
  refine ⟨⟨_, rfl⟩, ?_⟩
  rintro o rfl
  exact ⟨_, rfl, h1, h2, hh⟩

/-- the state of a rank between push and exchange -/
def Moved (X : Setup) (C : Call → Prop) (γ : State) (prts : ℕ → ℕ → List Push.Prt) (σ : Glob ℝ) : Prop :=
  ∀ r < X.size, HasMoved X r (γ r).prts (prts r) ∧ Stores (X.lay r) (σ r) (γ r).mem ∧ HasCache C r (γ r).cache

theorem push_ok (hX : Fits X C) {γ : State} {s : Pic.State} (h : Holds X C γ s) (hb : Busy X s) :
    Does (Each X (PushR X)) γ fun γ' => Moved X C γ' (Pic.pushPrts X.S s.prts s.flds).1 (withJ X s) := by
  refine does_each (Q := fun r t => HasMoved X r t.prts ((Pic.pushPrts X.S s.prts s.flds).1 r) ∧
    Stores (X.lay r) (withJ X s r) t.mem ∧ HasCache C r t.cache) fun r hr => ?_
  obtain ⟨h1, h2, h3⟩ := h r hr
  obtain ⟨h4, h5⟩ := pushR_ok hX h1 h2 (hb r hr)
  refine ⟨h4, fun o ho => ?_⟩
  obtain ⟨s', e, e1, e2, e3⟩ := h5 o ho
  refine ⟨s', e, e2, e3, ?_⟩
  rw [e1]
  exact h3

theorem exchange_ok (hX : Fits X C) {γ : State} {prts T : ℕ → ℕ → List Push.Prt} {σ : Glob ℝ} (h : Moved X C γ prts σ)
    (hn : Pic.PrtsNear X.S prts) (hT : Pic.exchangePrts X.S prts = some T)
    (hb : ∀ r < X.size, ∃ p < X.S.c.D.nr_patches r, T r p ≠ []) :
    Does (fun γ o => o = exch X γ) γ fun γ' => Holds X C γ' ⟨T, σ⟩ := by
  obtain ⟨γ', e, h'⟩ := exch_ok hX (fun r hr => (h r hr).1) hn hT hb
  refine ⟨⟨_, rfl⟩, ?_⟩
  rintro o rfl
  refine ⟨γ', e, fun r hr => ?_⟩
  obtain ⟨h1, h2, h3⟩ := h' r hr
  refine ⟨h3, ?_, ?_⟩
  · rw [h1]; exact (h r hr).2.1
  · rw [h2]; exact (h r hr).2.2

theorem rho_some (hX : Fits X C) (prts : ℕ → ℕ → List Push.Prt) : ∃ rho, Pic.itemRhoM X.S prts = some rho := by
  have h0 := hX.calls.ok _ (own_call hX (add := true) (mb := JXI) (by simp))
  have hk : Call.Ok (X.call true 0 1) := ⟨h0.cfg, ⟨Nat.zero_le _, show 1 ≤ 9 by omega⟩, h0.ghosts, h0.size⟩
  exact ⟨_, collective_some (fun r => cpu_eq hk (fun r p => Pic.depOf (Push.rho X.S.depM X.S.P (prts r p))) r) _⟩

/-- what the CPU does with the fields in a step -/
theorem fieldStep_eq (c : Cfg) (g : Fields.GridP ℝ) (dep σ : Glob ℝ) :
    fieldStep c g dep [] σ = (addAll c JXI (JXI + 3) fun r p mn => if mn.1 < JXI + 3 then dep r p mn else σ r p mn).bind fun σ =>
      (fillAll c JXI (JXI + 3) σ).bind fun σ => (fillAll c HX (HX + 3) (pushH g (1/2) σ)).bind fun σ =>
        (fillAll c EX (EX + 3) (pushE g 1 σ)).bind fun σ => fillAll c HX (HX + 3) (pushH g (1/2) σ) := rfl

/-- One step. -/
theorem step_ok (hX : Fits X C) {ops : List Op} (ho : ∀ k, Op.call k ∈ ops → C k) {γ : State} {s : Pic.State} (h : Holds X C γ s)
    (hp : Pic.PrtsInside X.S s.prts) (hb : Busy X s) :
    ∃ s', Pic.step X.S plain s = some s' ∧ Pic.PrtsInside X.S s'.prts ∧
      (Busy X s' → Does (Seq (phases X ops)) γ fun γ' => Holds X C γ' s') := by
  have hn := Pic.push_near' hX.fit s.flds hp
  obtain ⟨T, hT, hin, -⟩ := Pic.exchange_global hX.fit hn
  obtain ⟨rho, hrho⟩ := rho_some hX T
  have hok : ∀ {add : Bool} {mb : ℕ}, (add, mb) ∈ [(true, JXI), (false, JXI), (false, EX), (false, HX)] →
      Call.Ok (X.call add mb (mb + 3)) := fun hm => hX.calls.ok _ (own_call hX hm)
  obtain ⟨σ1, c1, -⟩ := cpuAll_eq (hok (add := true) (mb := JXI) (by simp)) (withJ X s)
  obtain ⟨σ2, c2, -⟩ := cpuAll_eq (hok (add := false) (mb := JXI) (by simp)) σ1
  obtain ⟨σ3, c3, -⟩ := cpuAll_eq (hok (add := false) (mb := HX) (by simp)) (pushH X.S.g (1/2) σ2)
  obtain ⟨σ4, c4, -⟩ := cpuAll_eq (hok (add := false) (mb := EX) (by simp)) (pushE X.S.g 1 σ3)
  obtain ⟨σ5, c5, -⟩ := cpuAll_eq (hok (add := false) (mb := HX) (by simp)) (pushH X.S.g (1/2) σ4)
  refine ⟨⟨T, σ5⟩, ?_, hin, fun hb' => ?_⟩
  · have hf : fieldStep X.S.c X.S.g (Pic.pushPrts X.S s.prts s.flds).2 [] s.flds = some σ5 := by
      rw [fieldStep_eq]
      have d1 : addAll X.S.c JXI (JXI + 3) (fun r p mn => if mn.1 < JXI + 3 then (Pic.pushPrts X.S s.prts s.flds).2 r p mn
        else s.flds r p mn) = some σ1 := c1
      have d2 : fillAll X.S.c JXI (JXI + 3) σ1 = some σ2 := c2
      have d3 : fillAll X.S.c HX (HX + 3) (pushH X.S.g (1/2) σ2) = some σ3 := c3
      have d4 : fillAll X.S.c EX (EX + 3) (pushE X.S.g 1 σ3) = some σ4 := c4
      have d5 : fillAll X.S.c HX (HX + 3) (pushH X.S.g (1/2) σ4) = some σ5 := c5
      rw [d1, Option.bind_some, d2, Option.bind_some, d3, Option.bind_some, d4, Option.bind_some, d5]
    unfold Pic.step plain
    simp only [Option.bind_eq_bind, List.map_nil]
    rw [hT, Option.bind_some, hrho, Option.bind_some, hf, Option.bind_some]
    rfl
  · unfold phases
    refine does_cons (others_ok hX ho h) fun γ h => ?_
    refine does_cons (push_ok hX h hb) fun γ h => ?_
    refine does_cons (exchange_ok hX h hn hT hb') fun γ h => ?_
    have bnd : ∀ {add : Bool} {mb : ℕ} (_ : (add, mb) ∈ [(true, JXI), (false, JXI), (false, EX), (false, HX)]) {γ : State} {σ σ' : Glob ℝ},
        Holds X C γ ⟨T, σ⟩ → cpuAll X add mb σ = some σ' →
        Does (BndR X (X.call add mb (mb + 3))) γ fun γ' => Holds X C γ' ⟨T, σ'⟩ := by
      intro add mb hm γ σ σ' h e
      obtain ⟨σ'', e', hd⟩ := bnd_ok hX (own_call hX hm) h
      rw [e, Option.some.injEq] at e'
      rwa [e']
    refine does_cons (bnd (by simp) h c1) fun γ h => ?_
    refine does_cons (bnd (by simp) h c2) fun γ h => ?_
    refine does_cons (pushH_ok hX (1/2) h) fun γ h => ?_
    refine does_cons (bnd (by simp) h c3) fun γ h => ?_
    refine does_cons (pushE_ok hX 1 h) fun γ h => ?_
    refine does_cons (bnd (by simp) h c4) fun γ h => ?_
    refine does_cons (pushH_ok hX (1/2) h) fun γ h => ?_
    refine does_cons (bnd (by simp) h c5) fun γ h => ?_
    exact does_nil h

/-- Any number of steps. -/
theorem run_ok (hX : Fits X C) (l : List (List Op)) (hl : ∀ ops ∈ l, ∀ k, Op.call k ∈ ops → C k) {γ : State} {s : Pic.State}
    (h : Holds X C γ s) (hp : Pic.PrtsInside X.S s.prts) (hb : StaysBusy X l.length s) :
    ∃ s', Pic.run X.S (List.replicate l.length plain) s = some s' ∧ Pic.PrtsInside X.S s'.prts ∧
      Does (Runs X l) γ fun γ' => Holds X C γ' s' := by
  induction l generalizing γ s with
  | nil => exact ⟨s, rfl, hp, does_nil h⟩
  | cons ops l ih =>
    obtain ⟨s₁, e1, p1, d1⟩ := step_ok hX (hl ops List.mem_cons_self) h hp (hb 0 (Nat.zero_le _) s rfl)
    have hrun : ∀ k, Pic.run X.S (List.replicate (k + 1) plain) s = Pic.run X.S (List.replicate k plain) s₁ := fun k => by
      rw [List.replicate_succ]
      change (Pic.step X.S plain s).bind _ = _
      rw [e1]
      rfl
    have hb1 : StaysBusy X l.length s₁ := fun k hk s' hs => hb (k + 1) (by rw [List.length_cons]; omega) s' ((hrun k).trans hs)
    have d1 := d1 (hb1 0 (Nat.zero_le _) s₁ rfl)
    -- the CPU's run does not depend on the state of the GPU
    obtain ⟨⟨o, ho⟩, hd⟩ := id d1
    obtain ⟨γ₁, -, h1⟩ := hd o ho
    obtain ⟨s', e2, p2, -⟩ := ih (fun ops ho => hl ops (List.mem_cons_of_mem _ ho)) h1 p1 hb1
    refine ⟨s', (hrun _).trans e2, p2, ?_⟩
    unfold Runs
    rw [List.flatMap_cons]
    refine does_append d1 fun γ' h' => ?_
    obtain ⟨s'', e3, -, d2⟩ := ih (fun ops ho => hl ops (List.mem_cons_of_mem _ ho)) h' p1 hb1
    rw [e2, Option.some.injEq] at e3
    rw [e3]
    exact d2

end Psc.CudaPic
