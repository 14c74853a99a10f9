import Verif.Lemmas.CudaPicFlds
import Verif.Lemmas.Serial
import Verif.Props.CudaPrts

/-!
# Lemmas: a step on the GPU without particles
-/

namespace Psc.CudaPic

open Domain Ddc FieldStep
open Cuda CudaFlds CudaBnd
open Spec.CudaPic Spec.CudaFlds Spec.CudaBnd

variable {X : Setup} {C : Call → Prop}

theorem prep_init (e : CudaPrts.Env ℝ) :
    CudaPrts.prep e (CudaPrts.init e) = some (CudaPrts.init e, (List.range e.g.nPatches).map fun _ => []) := rfl

theorem globalPrts_nil {S : Pic.Setup} {prts : ℕ → ℕ → List Push.Prt} :
    Pic.globalPrts S prts = [] ↔ ∀ r p, S.c.D.Has r p → prts r p = [] := by
  unfold Pic.globalPrts
  rw [List.flatMap_eq_nil_iff]
  simp only [List.map_eq_nil_iff]
  constructor
  · exact fun h r p hh => h (r, p) (Bndp.mem_allPatches.2 hh)
  · exact fun h rp hrp => h rp.1 rp.2 (Bndp.mem_allPatches.1 hrp)

theorem exch_idle (hX : Fits X C) {γ : State} (h : ∀ r < X.size, (γ r).prts = CudaPrts.init (X.env r)) :
    ∃ γ', exch X γ = some γ' ∧
      ∀ r < X.size, (γ' r).mem = (γ r).mem ∧ (γ' r).cache = (γ r).cache ∧ HasPrts X r (γ' r).prts fun _ => [] := by
  have hD : X.S.ex.D.Valid := hX.fit.valid.valid
  have hok : ∀ d, 0 < X.S.ex.ldims d ∧ 0 < X.S.ex.dx d := fun d => ⟨hX.fit.pos d, hX.fit.dx d⟩
  set bufs : ℕ → ℕ → List (Bndp.Prt ℝ (ℝ × ℕ × ℕ × ℤ)) := fun r p =>
    (((((List.range X.size).map fun r => (CudaPrts.init (X.env r), (List.range (X.env r).g.nPatches).map fun _ =>
      ([] : List (A2.Prt ℝ))))[r]?).map Prod.snd).getD []).getD p [] |>.map toB with hbufs
  have hb : ∀ r p, bufs r p = [] := by
    intro r p
    rw [hbufs]
    dsimp only
    rw [List.map_eq_nil_iff, List.getElem?_map, List.getD_eq_getElem?_getD]
    cases (List.range X.size)[r]? with
    | none => rfl
    | some a =>
      show ((List.map (fun _ => ([] : List (A2.Prt ℝ))) _)[p]?).getD [] = []
      rw [List.getElem?_map]
      cases (List.range (X.env a).g.nPatches)[p]? <;> rfl
  obtain ⟨f, f', hf⟩ := Bndp.exchange_split X.S.ex hD hok less (fun _ _ => ([] : List Push.Prt).map Pic.toB) bufs
    (fun _ _ _ q hq => by cases hq) (fun r p _ => by rw [hb r p]; exact List.Perm.refl _)
  obtain ⟨T, hT, -, hg⟩ := Pic.exchange_global hX.fit (prts := fun _ _ => []) fun _ _ _ q hq => by cases hq
  have hTn : ∀ r p, X.S.c.D.Has r p → T r p = [] := by
    refine globalPrts_nil.1 (List.Perm.eq_nil (hg.trans (List.Perm.of_eq ?_)))
    rw [List.map_eq_nil_iff]
    exact globalPrts_nil.2 fun _ _ _ => rfl
  have hf' : ∀ r < X.size, ∀ p < X.S.c.D.nr_patches r, f' r p = [] := by
    intro r hr p hp
    have h1 := (hf r hr).2.2 p (has_of hp)
    unfold Pic.exchangePrts at hT
    dsimp only at hT
    split_ifs at hT
    have h2 := hTn r p (has_of hp)
    rw [← Option.some.inj hT] at h2
    dsimp only at h2
    rw [(hf r hr).1] at h2
    have h2 : f r p = [] := List.map_eq_nil_iff.1 h2
    rw [h2] at h1
    have := List.nil_perm.1 h1
    exact List.map_eq_nil_iff.1 (List.append_eq_nil_iff.1 this).2
  have h2 : ∀ r, ∃ s', r < X.size →
      CudaPrts.post (X.env r) (CudaPrts.init (X.env r)) ((List.range (X.S.c.D.nr_patches r)).map fun p => (f' r p).map ofB) = some s' ∧
      HasPrts X r s' fun _ => [] := by
    intro r
    by_cases hr : r < X.size
    swap
    · exact ⟨CudaPrts.init (X.env r), fun h => absurd h hr⟩
    have e : ((List.range (X.S.c.D.nr_patches r)).map fun p => (f' r p).map ofB) =
        (List.range (X.S.c.D.nr_patches r)).map fun _ => [] := by
      refine List.map_congr_left fun p hp => ?_
      rw [hf' r hr p (List.mem_range.1 hp)]
      rfl
    rw [e]
    set recv : List (List (A2.Prt ℝ)) := (List.range (X.S.c.D.nr_patches r)).map fun _ => [] with hrecv
    have hs : ∀ p, CudaPrts.stored (recv.getD p []) = 0 := by
      intro p
      rw [hrecv, List.getD_eq_getElem?_getD, List.getElem?_map]
      cases (List.range (X.S.c.D.nr_patches r))[p]? <;> rfl
    have ha : CudaPrts.Allowed (X.env r) CudaPrts.Abs.init (.exchange recv) := by
      refine ⟨by decide, by decide, by rw [hrecv, List.length_map, List.length_range]; rfl, fun l hl q hq => ?_, fun _ _ _ => rfl⟩
      rw [hrecv] at hl
      obtain ⟨p, -, rfl⟩ := List.mem_map.1 hl
      cases hq
    have hr0 : Reach (X.env r) (CudaPrts.init (X.env r)) CudaPrts.Abs.init := ⟨[], .nil _, trivial, rfl⟩
    have hno := ((Props.C71_history_partial (X.env r) (env_ok hX r) [] _ (.nil _) trivial).2 (.exchange recv) ha).1
    cases hp : CudaPrts.post (X.env r) (CudaPrts.init (X.env r)) recv with
    | none => exact absurd (CudaPrts.Fails.post (prep_init _) hp) hno
    | some s' =>
      refine ⟨s', fun _ => ⟨rfl, _, Reach.step hr0 ha (.exchange (prep_init _) hp), ?_, ?_, fun p _ => ?_⟩⟩
      · show CudaPrts.Phase.exchanged ≠ .pushed
        decide
      · show CudaPrts.Phase.exchanged ≠ .cleared
        decide
      · unfold CudaPrts.after
        dsimp only
        rw [hs p]
        classical exact (add_zero _).trans (Multiset.filter_zero _)
  choose s' h2 using h2
  refine ⟨fun r => match ((List.range X.size).map s')[r]? with
    | some s => { γ r with prts := s }
    | none => γ r, ?_, fun r hr => ?_⟩
  · unfold exch
    rw [CudaPrts.mapM_some (g := fun r => (CudaPrts.init (X.env r), (List.range (X.env r).g.nPatches).map fun _ =>
      ([] : List (A2.Prt ℝ)))) fun r hr => by rw [h r (List.mem_range.1 hr), prep_init]]
    rw [Option.bind_eq_bind, Option.bind_some]
    dsimp only
    rw [CudaPrts.mapM_some (g := s') fun r hr => ?_]
    · rfl
    · have hr := List.mem_range.1 hr
      rw [List.getElem?_map, List.getElem?_range hr]
      change ((Bndp.exchange X.S.ex bufs r).bind fun got => _) = _
      rw [(hf r hr).2.1]
      exact (h2 r hr).1
  · dsimp only
    rw [List.getElem?_map, List.getElem?_range hr]
    exact ⟨rfl, rfl, (h2 r hr).2⟩

/-- a rank without particles: the push does nothing -/
theorem push_idle {r : ℕ} {s : Rank} (h : s.prts.n = 0) (o : Option Rank) : PushR X r s o ↔ o = some s := by
  constructor
  · intro ho
    cases ho with
    | idle => rfl
    | load hn => exact absurd h hn
    | offsets hn => exact absurd h hn
    | fail hn => exact absurd h hn
    | run hn => exact absurd h hn
  · rintro rfl
    exact .idle s h

/-- A step without particles uses the currents there were. -/
theorem step_idle (hX : Fits X C) {γ : State} {σ : Glob ℝ} (h : ∀ r < X.size, (γ r).prts = CudaPrts.init (X.env r))
    (hM : ∀ r < X.size, Stores (X.lay r) (σ r) (γ r).mem) (hC : ∀ r < X.size, HasCache C r (γ r).cache) :
    ∃ σ', fieldStep X.S.c X.S.g σ [] σ = some σ' ∧ Does (Seq (phases X [])) γ fun γ' => Holds X C γ' ⟨fun _ _ => [], σ'⟩ := by
  have hok : ∀ {add : Bool} {mb : ℕ}, (add, mb) ∈ [(true, JXI), (false, JXI), (false, EX), (false, HX)] →
      Call.Ok (X.call add mb (mb + 3)) := fun hm => hX.calls.ok _ (own_call hX hm)
  obtain ⟨σ1, c1, -⟩ := cpuAll_eq (hok (add := true) (mb := JXI) (by simp)) σ
  obtain ⟨σ2, c2, -⟩ := cpuAll_eq (hok (add := false) (mb := JXI) (by simp)) σ1
  obtain ⟨σ3, c3, -⟩ := cpuAll_eq (hok (add := false) (mb := HX) (by simp)) (pushH X.S.g (1/2) σ2)
  obtain ⟨σ4, c4, -⟩ := cpuAll_eq (hok (add := false) (mb := EX) (by simp)) (pushE X.S.g 1 σ3)
  obtain ⟨σ5, c5, -⟩ := cpuAll_eq (hok (add := false) (mb := HX) (by simp)) (pushH X.S.g (1/2) σ4)
  refine ⟨σ5, ?_, ?_⟩
  · rw [fieldStep_eq]
    have d1 : addAll X.S.c JXI (JXI + 3) (fun r p mn => if mn.1 < JXI + 3 then σ r p mn else σ r p mn) = some σ1 := by
      simp only [ite_self]
      exact c1
    have d2 : fillAll X.S.c JXI (JXI + 3) σ1 = some σ2 := c2
    have d3 : fillAll X.S.c HX (HX + 3) (pushH X.S.g (1/2) σ2) = some σ3 := c3
    have d4 : fillAll X.S.c EX (EX + 3) (pushE X.S.g 1 σ3) = some σ4 := c4
    have d5 : fillAll X.S.c HX (HX + 3) (pushH X.S.g (1/2) σ4) = some σ5 := c5
    rw [d1, Option.bind_some, d2, Option.bind_some, d3, Option.bind_some, d4, Option.bind_some, d5]
  · unfold phases
    have q0 : ∀ r < X.size, (γ r).prts = CudaPrts.init (X.env r) ∧ Stores (X.lay r) (σ r) (γ r).mem ∧ HasCache C r (γ r).cache :=
      fun r hr => ⟨h r hr, hM r hr, hC r hr⟩
    clear h hM hC
    refine does_cons (Q := fun γ : State => ∀ r < X.size, (γ r).prts = CudaPrts.init (X.env r) ∧ Stores (X.lay r) (σ r) (γ r).mem ∧
      HasCache C r (γ r).cache) (does_each (Q := fun r s => s.prts = CudaPrts.init (X.env r) ∧ Stores (X.lay r) (σ r) s.mem ∧
        HasCache C r s.cache) fun r hr => ⟨⟨_, rfl⟩, fun o ho => ⟨γ r, ho, q0 r hr⟩⟩) fun γ q1 => ?_
    refine does_cons (Q := fun γ : State => ∀ r < X.size, (γ r).prts = CudaPrts.init (X.env r) ∧ Stores (X.lay r) (σ r) (γ r).mem ∧
      HasCache C r (γ r).cache) (does_each (Q := fun r s => s.prts = CudaPrts.init (X.env r) ∧ Stores (X.lay r) (σ r) s.mem ∧
        HasCache C r s.cache) fun r hr => ?_) fun γ q2 => ?_
    · have h0 : (γ r).prts.n = 0 := by rw [(q1 r hr).1]; rfl
      exact ⟨⟨_, (push_idle h0 _).2 rfl⟩, fun o ho => ⟨γ r, (push_idle h0 o).1 ho, q1 r hr⟩⟩
    obtain ⟨γ', e, h'⟩ := exch_idle hX fun r hr => (q2 r hr).1
    refine does_cons (Q := fun γ => Holds X C γ ⟨fun _ _ => [], σ⟩) ⟨⟨_, rfl⟩, ?_⟩ fun γ h => ?_
    · rintro o rfl
      refine ⟨γ', e, fun r hr => ?_⟩
      obtain ⟨h1, h2, h3⟩ := h' r hr
      refine ⟨h3, ?_, ?_⟩
      · rw [h1]; exact (q2 r hr).2.1
      · rw [h2]; exact (q2 r hr).2.2
    have bnd : ∀ {add : Bool} {mb : ℕ} (_ : (add, mb) ∈ [(true, JXI), (false, JXI), (false, EX), (false, HX)]) {γ : State} {σ σ' : Glob ℝ},
        Holds X C γ ⟨fun _ _ => [], σ⟩ → cpuAll X add mb σ = some σ' →
        Does (BndR X (X.call add mb (mb + 3))) γ fun γ' => Holds X C γ' ⟨fun _ _ => [], σ'⟩ := by
      intro add mb hm γ σ σ' h e
      obtain ⟨σ'', e', hd⟩ := bnd_ok hX (own_call hX hm) h
      rw [e, Option.some.injEq] at e'
      rwa [e']
    refine does_cons (bnd (by simp) h c1) fun γ h => ?_
    refine does_cons (bnd (by simp) h c2) fun γ h => ?_
    refine does_cons (pushH_ok hX (1/2) h) fun γ h => ?_
    refine does_cons (bnd (by simp) h c3) fun γ h => ?_
    refine does_cons (pushE_ok hX 1 h) fun γ h => ?_
    refine does_cons (bnd (by simp) h c4) fun γ h => ?_
    refine does_cons (pushH_ok hX (1/2) h) fun γ h => ?_
    refine does_cons (bnd (by simp) h c5) fun γ h => ?_
    exact does_nil h

end Psc.CudaPic
