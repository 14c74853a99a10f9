import Verif.Lemmas.RunTotals
import Verif.Lemmas.WallStep

/-!
# The census of runs with walls and open boundaries
-/

namespace Psc.WallPic

open Domain Ddc FieldStep BndFields Spec Pic

noncomputable section

/-- What the exchange does to the census: it takes away the particles that leave through open or absorbing boundaries. -/
theorem exchange_census {S : Setup} (hF : Fit S) {prts : ℕ → ℕ → List Push.Prt} (hn : Near1 S prts) {U : ℕ → ℕ → List Push.Prt}
    (hU : exchangePrts S.pic prts = some U) :
    (census S.pic U).Perm (census S.pic fun r p => (prts r p).filter fun q => ¬ Bndp.Leaves (S.pic.ex.patch r p) q.x) := by
  set g := S.pic.ex with hg
  set pB : ℕ → ℕ → List (Bndp.Prt ℝ (ℝ × ℕ)) := fun r p => (prts r p).map toB with hpB
  have hD : g.D.Valid := hF.valid.valid
  have hok : ∀ d, 0 < g.ldims d ∧ 0 < g.dx d := fun d => ⟨hF.pos d, hF.dx d⟩
  have mem : ∀ r p (b : Bndp.Prt ℝ (ℝ × ℕ)), b ∈ pB r p → ∃ q ∈ prts r p, toB q = b := fun r p b hb => List.mem_map.1 hb
  have near : Bndp.AllNear g pB := by
    intro r p hh b hb d
    obtain ⟨q, hq', rfl⟩ := mem r p b hb
    obtain ⟨⟨a1, a2⟩, a3⟩ := (hn r p hh q hq').2 d
    have hdx := hF.dx d
    have hL : (1 : ℝ) ≤ S.c.ldims d := by exact_mod_cast hF.pos d
    change -(S.c.ldims d * S.P.dx d) < q.x d ∧ q.x d < 2 * (S.c.ldims d * S.P.dx d)
    constructor <;> nlinarith
  have hper : ∀ d, g.prt_lo d = .periodic ∨ g.prt_hi d = .periodic → g.D.bc d = true ∨
      ∀ r p, g.D.Has r p → ∀ q ∈ pB r p, 0 ≤ q.x d ∧ q.x d < (g.patch r p).size d := by
    intro d hp
    cases hd : S.cfg.inv d
    · rcases (hF.act d hd).2.2 with ⟨a, -⟩ | ⟨-, a, b⟩
      · exact Or.inl a
      · have s : ∀ p f, Side d p f → p ≠ .periodic := by intro p f hs; cases hs <;> decide
        rcases hp with hp | hp
        · exact absurd hp (s _ _ a)
        · exact absurd hp (s _ _ b)
    · refine Or.inr fun r p hh b hb => ?_
      obtain ⟨q, hq', rfl⟩ := mem r p b hb
      exact ((hn r p hh q hq').2 d).2 hd
  obtain ⟨T, hT, hin, hperm⟩ := Props.C19_exchange_conserves_partial g hD hok pB near hper
  have hex : exchangePrts S.pic prts = some fun r p => (((Bndp.exchange g pB r).getD fun _ => []) p).map ofB := by
    unfold exchangePrts
    rw [if_pos]
    intro r hr
    show (Bndp.exchange g pB r).isSome = true
    rw [hT r (List.mem_range.1 hr)]
    rfl
  rw [hex] at hU
  obtain rfl := Option.some.inj hU
  unfold census everyone
  rw [List.map_flatMap, List.map_flatMap]
  refine List.Perm.trans (List.Perm.of_eq (List.flatMap_congr fun rp hrp => ?_)) (hperm.trans (List.Perm.of_eq
    (List.flatMap_congr fun rp hrp => ?_)))
  · have hh := Bndp.mem_allPatches.1 hrp
    simp only
    rw [hT rp.1 hh.1, Option.getD_some, List.map_map]
    rfl
  · simp only [hpB, List.filter_map, List.map_map]
    rfl

/-- no side of the domain removes particles -/
def Tight (S : Setup) : Prop := ∀ d, ¬ Bndp.Removes (S.prt_lo d) ∧ ¬ Bndp.Removes (S.prt_hi d)

theorem step_census {S : Setup} (hF : Fit S) {i : StepIn} (hi : KeepsCharge i) {s : Pic.State} {T : ℕ → ℕ → List Push.Prt}
    (hp : PrtsOk S s.prts) (hT : exchangePrts S.pic (pushPrts S.pic (fun r p => i.pre r p (s.prts r p)) s.flds).1 = some T) :
    (census S.pic T).Subperm (census S.pic s.prts) ∧ (Tight S → (census S.pic T).Perm (census S.pic s.prts)) := by
  have h1 := exchange_census hF (push_near hF s.flds (pre_ok hi hp)) hT
  have h2 : (census S.pic (pushPrts S.pic (fun r p => i.pre r p (s.prts r p)) s.flds).1).Perm (census S.pic s.prts) := by
    rw [push_census]
    exact pre_census (i := ⟨i.pre, []⟩) hi s.prts
  constructor
  · refine h1.subperm.trans (List.Subperm.trans (List.Sublist.subperm ?_) h2.subperm)
    unfold census everyone
    refine List.Sublist.map _ ?_
    generalize Bndp.allPatches S.pic.c.D = L
    induction L with
    | nil => exact List.Sublist.refl _
    | cons a L ih =>
      rw [List.flatMap_cons, List.flatMap_cons]
      exact List.filter_sublist.append ih
  · intro ht
    refine h1.trans (List.Perm.trans (List.Perm.of_eq ?_) h2)
    unfold census everyone
    congr 1
    refine List.flatMap_congr fun rp _ => ?_
    rw [List.filter_eq_self]
    intro q _
    rw [decide_eq_true_iff]
    rintro ⟨d, ⟨-, -, h⟩ | ⟨-, -, h⟩⟩
    · exact (ht d).1 h
    · exact (ht d).2 h

theorem run_census {S : Setup} (hF : Fit S) (hS : Sound S) (l : List StepIn) (hl : ∀ i ∈ l, KeepsCharge i) (s : Pic.State)
    (hf : FieldsAgree S s.flds) (hp : PrtsOk S s.prts) :
    ∃ s', run S l s = some s' ∧ (census S.pic s'.prts).Subperm (census S.pic s.prts) ∧
      (Tight S → (census S.pic s'.prts).Perm (census S.pic s.prts)) := by
  induction l generalizing s with
  | nil => exact ⟨s, rfl, List.Subperm.refl _, fun _ => List.Perm.refl _⟩
  | cons i l ih =>
    obtain ⟨s1, e1, f1, p1, -, -⟩ := step_spec hF hS i (hl i List.mem_cons_self) s hf hp
    obtain ⟨s2, e2, c2, d2⟩ := ih (fun i hi => hl i (List.mem_cons_of_mem _ hi)) s1 f1 p1
    have hT : exchangePrts S.pic (pushPrts S.pic (fun r p => i.pre r p (s.prts r p)) s.flds).1 = some s1.prts := by
      have e := e1
      unfold step at e
      simp only [Option.bind_eq_bind, Option.bind_eq_some_iff] at e
      obtain ⟨T, h1, τ, -, h2⟩ := e
      obtain rfl := Option.some.inj h2
      exact h1
    obtain ⟨c1, d1⟩ := step_census hF (hl i List.mem_cons_self) hp hT
    refine ⟨s2, ?_, c2.trans c1, fun ht => (d2 ht).trans (d1 ht)⟩
    simp only [run, Option.bind_eq_bind, e1, Option.bind_some]
    exact e2

end

end Psc.WallPic
