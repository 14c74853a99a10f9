import Verif.Lemmas.CudaMomentsItem

/-! Lemmas for runs on the GPU with moments -/

namespace Psc.CudaMom

open Domain Ddc FieldStep Moments
open Cuda CudaFlds CudaBnd CudaPic
open Spec.CudaPic Spec.CudaFlds Spec.CudaBnd Spec.CudaMom

variable {X : CudaPic.Setup} {C : Call → Prop}

theorem mem_global {S : Pic.Setup} {prts : ℕ → ℕ → List Push.Prt} {r p : ℕ} (h : S.c.D.Has r p) {q : Push.Prt} (hq : q ∈ prts r p) :
    Pic.globalPrt S (r, p) q ∈ Pic.globalPrts S prts :=
  List.mem_flatMap.2 ⟨(r, p), Bndp.mem_allPatches.2 h, List.mem_map.2 ⟨q, hq, rfl⟩⟩

theorem of_global {S : Pic.Setup} {prts : ℕ → ℕ → List Push.Prt} {g : Push.Prt} (h : g ∈ Pic.globalPrts S prts) :
    ∃ r p, S.c.D.Has r p ∧ ∃ q ∈ prts r p, g.kind = q.kind := by
  obtain ⟨⟨r, p⟩, h1, h2⟩ := List.mem_flatMap.1 h
  obtain ⟨q, hq, rfl⟩ := List.mem_map.1 h2
  exact ⟨r, p, Bndp.mem_allPatches.1 h1, q, hq, rfl⟩

/-- a step keeps the species of particles -/
theorem step_known (hX : Spec.CudaPic.Fits X C) {s s' : Pic.State} (hp : Pic.PrtsInside X.S s.prts)
    (hs : Pic.step X.S plain s = some s') {kinds : List String} (h : Known X kinds s.prts) : Known X kinds s'.prts := by
  have hn := Pic.push_near' hX.fit s.flds hp
  obtain ⟨T, hT, -, hperm⟩ := Pic.exchange_global hX.fit hn
  have e : s'.prts = T := by
    unfold Pic.step plain at hs
    simp only [Option.bind_eq_bind] at hs
    rw [hT, Option.bind_some] at hs
    obtain ⟨x, -, hs⟩ := Option.bind_eq_some_iff.1 hs
    obtain ⟨y, -, hs⟩ := Option.bind_eq_some_iff.1 hs
    cases hs
    rfl
  rw [e]
  intro r p hh q hq
  have h1 := hperm.subset (mem_global hh hq)
  obtain ⟨g, hg, eg⟩ := List.mem_map.1 h1
  obtain ⟨r', p', hh', q', hq', ek⟩ := of_global hg
  have hk : q.kind = q'.kind := by
    rw [← ek]
    exact (congrArg Push.Prt.kind eg).symm
  have hq'' : q' ∈ (s.prts r' p').map fun q => (Push.pushOne X.S.cfg X.S.P (Pic.emOf (s.flds r' p')) q).1 := by
    have : q' ∈ (Push.pushAll X.S.cfg X.S.P (Pic.emOf (s.flds r' p')) (s.prts r' p')).1 := hq'
    rwa [Pic.pushAll_eq] at this
  obtain ⟨q₀, hq₀, rfl⟩ := List.mem_map.1 hq''
  rw [hk]
  exact h r' p' hh' q₀ hq₀

theorem trace_ok (hX : Spec.CudaPic.Fits X C) (l : List Act) (ho : ∀ ops, Act.step ops ∈ l → ∀ k, Op.call k ∈ ops → C k)
    {s : Pic.State} (hi : ∀ I, Act.item I ∈ l → Spec.CudaMom.Fits X C I ∧ Known X I.kinds s.prts) {γ : CudaPic.State}
    (h : Holds X C γ s) (hp : Pic.PrtsInside X.S s.prts) (hb : StaysBusy X (steps l) s) :
    ∃ τs s', cpuTrace X l s = some (τs, s') ∧ (∃ o, Trace X l γ o) ∧
      ∀ o, Trace X l γ o → ∃ rs γ', o = some (rs, γ') ∧ Agree X l τs rs ∧ Holds X C γ' s' := by
  induction l generalizing γ s with
  | nil =>
    refine ⟨[], s, rfl, ⟨_, .nil γ⟩, fun o ho => ?_⟩
    cases ho
    exact ⟨[], γ, rfl, trivial, h⟩
  | cons a l ih =>
    cases a with
    | step ops =>
      obtain ⟨s₁, e1, p1, d1⟩ := step_ok hX (ho ops List.mem_cons_self) h hp (hb 0 (Nat.zero_le _) s rfl)
      have hrun : ∀ k, Pic.run X.S (List.replicate (k + 1) plain) s = Pic.run X.S (List.replicate k plain) s₁ := fun k => by
        rw [List.replicate_succ]
        change (Pic.step X.S plain s).bind _ = _
        rw [e1]
        rfl
      have hb1 : StaysBusy X (steps l) s₁ := fun k hk s' hs => hb (k + 1) (Nat.succ_le_succ hk) s' ((hrun k).trans hs)
      have d1 := d1 (hb1 0 (Nat.zero_le _) s₁ rfl)
      have ih' := fun {γ : CudaPic.State} (hγ : Holds X C γ s₁) => ih (fun ops h => ho ops (List.mem_cons_of_mem _ h))
        (s := s₁) (fun I hI => ⟨(hi I (List.mem_cons_of_mem _ hI)).1, step_known hX hp e1 (hi I (List.mem_cons_of_mem _ hI)).2⟩) hγ p1 hb1
      obtain ⟨⟨o, ho1⟩, hd⟩ := id d1
      obtain ⟨γ₁, rfl, h1⟩ := hd o ho1
      obtain ⟨τs, s', e2, ⟨o2, ho2⟩, -⟩ := ih' h1
      refine ⟨τs, s', ?_, ⟨o2, .step ops l γ γ₁ o2 ho1 ho2⟩, fun o ho => ?_⟩
      · change (Pic.step X.S plain s).bind _ = _
        rw [e1]
        exact e2
      · cases ho with
        | stepFail _ _ _ hf =>
          obtain ⟨_, e, -⟩ := hd _ hf
          exact absurd e.symm (Option.some_ne_none _)
        | step _ _ _ γ' _ hs ht =>
          obtain ⟨γ₂, e, h2⟩ := hd _ hs
          rw [Option.some.injEq] at e
          subst e
          obtain ⟨τs', s'', e3, -, h3⟩ := ih' h2
          rw [e2, Option.some.injEq, Prod.mk.injEq] at e3
          obtain ⟨rfl, rfl⟩ := e3
          exact h3 o ht
    | item I =>
      obtain ⟨hF, hk⟩ := hi I List.mem_cons_self
      have hall : HasAll X C γ s.prts := fun r hr => ⟨(h r hr).1, (h r hr).2.2⟩
      have hh : (grid I X).Holds s.prts := fun r p hrp q hq => ⟨(hk r p hrp q hq).1, (hk r p hrp q hq).2, hp r p hrp q hq⟩
      obtain ⟨τ, e1, ⟨o1, ho1⟩, hd⟩ := item_ok hF hall hh (fun hy => by
        have h1 := gdimX_ne hX 0
        exact absurd (gdimX_yz hF hy 0).1 h1)
      have hq : ∀ γ' : CudaPic.State, HasAll X C γ' s.prts → (∀ r < X.size, (γ' r).mem = (γ r).mem) → Holds X C γ' s := by
        intro γ' h1 h2 r hr
        refine ⟨(h1 r hr).1, ?_, (h1 r hr).2⟩
        rw [h2 r hr]
        exact (h r hr).2.1
      have ih' := fun {γ : CudaPic.State} (hγ : Holds X C γ s) => ih (fun ops h => ho ops (List.mem_cons_of_mem _ h))
        (s := s) (fun I hI => hi I (List.mem_cons_of_mem _ hI)) hγ hp hb
      obtain ⟨γ₁, r₁, rfl, a1, a2⟩ := hd o1 ho1
      obtain ⟨τs, s', e2, ⟨o2, ho2⟩, -⟩ := ih' (hq γ₁ a1 fun r hr => (a2 r hr).1)
      refine ⟨τ :: τs, s', ?_, ⟨_, .item I l γ γ₁ r₁ o2 ho1 ho2⟩, fun o ho => ?_⟩
      · change (Spec.CudaMom.cpu I X s.prts).bind _ = _
        rw [e1, Option.bind_some, e2]
        rfl
      · cases ho with
        | itemFail _ _ _ hf =>
          obtain ⟨_, _, e, -⟩ := hd _ hf
          exact absurd e.symm (Option.some_ne_none _)
        | item _ _ _ γ' res o' hs ht =>
          obtain ⟨γ₂, r₂, e, b1, b2⟩ := hd _ hs
          rw [Option.some.injEq, Prod.mk.injEq] at e
          obtain ⟨rfl, rfl⟩ := e
          obtain ⟨τs', s'', e3, -, h3⟩ := ih' (hq _ b1 fun r hr => (b2 r hr).1)
          rw [e2, Option.some.injEq, Prod.mk.injEq] at e3
          obtain ⟨rfl, rfl⟩ := e3
          obtain ⟨rs, γ₃, rfl, c1, c2⟩ := h3 _ ht
          exact ⟨res :: rs, γ₃, rfl, ⟨fun r hr => (b2 r hr).2, c1⟩, c2⟩

end Psc.CudaMom
