import Verif.Spec.SetupFields
import Verif.Lemmas.Fields
import Verif.Lemmas.Energies
import Verif.Lemmas.Serial
import Verif.Lemmas.BndWall

/-!
# Lemmas for the initial fields
-/

namespace Psc.SetupFields

open Domain Ddc FieldStep Fields Cp Spec Spec.Yee

section
variable {K : Type} [Field K]

theorem get_pos_FC (c : Cfg) (G : Geom K) (r p : ℕ) (n : I3) (e : Fin 3) :
    get_pos (mkPatch c G r p) n .FC (e : ℤ) = some (face G e fun d => c.off r p d + n d) := by
  unfold get_pos
  rw [if_neg (by rintro ⟨h, -⟩; omega)]
  congr 1
  funext d
  by_cases h : d = e
  · subst h
    simp [face, posOf, get_nc, mkPatch]; ring
  · have : ((d : ℕ) : ℤ) ≠ e := fun h' => h (Fin.ext (by exact_mod_cast h'))
    simp [face, posOf, Patch.get_cc, mkPatch, h, this]; ring

theorem get_pos_EC (c : Cfg) (G : Geom K) (r p : ℕ) (n : I3) (e : Fin 3) :
    get_pos (mkPatch c G r p) n .EC (e : ℤ) = some (edge G e fun d => c.off r p d + n d) := by
  unfold get_pos
  rw [if_neg (by rintro ⟨h, -⟩; omega)]
  congr 1
  funext d
  by_cases h : d = e
  · subst h
    simp [edge, posOf, Patch.get_cc, mkPatch]; ring
  · have : ((d : ℕ) : ℤ) ≠ e := fun h' => h (Fin.ext (by exact_mod_cast h'))
    simp [edge, posOf, get_nc, mkPatch, h, this]; ring

theorem get_pos_NC (c : Cfg) (G : Geom K) (r p : ℕ) (n : I3) (e : ℤ) :
    get_pos (mkPatch c G r p) n .NC e = some (node G fun d => c.off r p d + n d) := by
  simp only [get_pos, true_or, not_true_eq_false, and_false, if_false, reduceCtorEq, false_and, or_self]
  congr 1
  funext d
  simp [node, posOf, get_nc, mkPatch]; ring

theorem get_pos_CC (c : Cfg) (G : Geom K) (r p : ℕ) (n : I3) (e : ℤ) :
    get_pos (mkPatch c G r p) n .CC e = some (centre G fun d => c.off r p d + n d) := by
  simp only [get_pos, or_true, not_true_eq_false, and_false, if_false, true_or, if_true]
  congr 1
  funext d
  simp [centre, posOf, Patch.get_cc, mkPatch]; ring

/-! ### Visited cells -/

theorem mem_visited (c : Cfg) (n : I3) :
    n ∈ visited c ↔ ∀ d, (if isInvar c d then 0 else -n_ghosts c) ≤ n d ∧
      n d < c.ldims d + if isInvar c d then 0 else n_ghosts c := by
  have hv : ∀ m : I3, (![m 0, m 1, m 2] : I3) = m := fun m => by funext d; fin_cases d <;> rfl
  unfold visited
  rw [List.mem_map]
  constructor
  · rintro ⟨⟨i, j, k⟩, h, rfl⟩
    exact mem_foreach3d.1 h
  · intro h
    refine ⟨(n 0, n 1, n 2), mem_foreach3d.2 ?_, hv n⟩
    intro d
    rw [hv]
    exact h d

theorem nodup_visited (c : Cfg) : (visited c).Nodup := by
  refine (nodup_foreach3d _ _ _ _).map ?_
  rintro ⟨i, j, k⟩ ⟨i', j', k'⟩ h
  have h0 := congrFun h 0
  have h1 := congrFun h 1
  have h2 := congrFun h 2
  simp at h0 h1 h2
  rw [h0, h1, h2]

theorem Ghosts.n_ghosts {c : Cfg} {w : ℤ} (h : Ghosts c w) : n_ghosts c = w := by
  have hle : ∀ d, c.ibn d ≤ w := by
    intro d
    by_cases hd : c.gdims d = 1
    · rw [h.inv d hd]; exact h.nonneg
    · rw [h.act d hd]
  obtain ⟨d, hd⟩ := h.some
  have hd := h.act d hd
  unfold SetupFields.n_ghosts
  have := hle 0
  have := hle 1
  have := hle 2
  fin_cases d <;> simp at hd <;> omega

theorem Ghosts.visited {c : Cfg} {w : ℤ} (h : Ghosts c w) (n : I3) : n ∈ visited c ↔ Stored c n := by
  rw [mem_visited]
  refine forall_congr' fun d => ?_
  rw [h.n_ghosts]
  by_cases hd : c.gdims d = 1
  · simp [isInvar, hd, h.inv d hd]
  · simp [isInvar, hd, h.act d hd]

/-! ### Loops -/

/-- what one cell of the loop adds -/
def cellVal (G : Geom K) (func : ℕ → R3 K → K) (x : I3) (m : ℕ) : K :=
  if h : m < 3 then func m (edge G ⟨m, h⟩ x)
  else if h : m - 3 < 3 then func m (edge G ⟨m - 3, h⟩ x)
  else if h : m - 6 < 3 then func m (face G ⟨m - 6, h⟩ x)
  else 0

/-- one cell of the loop -/
def cellStep (val : I3 → ℕ → K) (F : PF K) (n : I3) : PF K := fun mn => if mn.2 = n then F mn + val n mn.1 else F mn

theorem foldl_cellStep (val : I3 → ℕ → K) : ∀ (l : List I3) (F : PF K), l.Nodup → ∀ mn,
    l.foldl (cellStep val) F mn = if mn.2 ∈ l then F mn + val mn.2 mn.1 else F mn
  | [], F, _, mn => by simp
  | n :: l, F, h, mn => by
    rw [List.foldl_cons, foldl_cellStep val l _ (List.nodup_cons.1 h).2]
    have hn := (List.nodup_cons.1 h).1
    unfold cellStep
    by_cases h1 : mn.2 = n
    · rw [h1, if_neg hn]
      simp
    · simp [h1]

theorem setComps_cell (c : Cfg) (G : Geom K) (func : ℕ → R3 K → K) (r p : ℕ) (n : I3) (hn : Stored c n) (F : PF K) :
    (List.finRange 3).foldlM (setComp c func (mkPatch c G r p) n) F =
      some (cellStep (fun n => cellVal G func fun d => c.off r p d + n d) F n) := by
  rw [Bndp.foldlM3]
  simp only [setComp, get_pos_FC, get_pos_EC, addTo, if_pos hn, Option.bind_eq_bind, Option.bind_some]
  congr 1
  funext mn
  obtain ⟨m, k⟩ := mn
  unfold cellStep
  simp only [Prod.mk.injEq]
  by_cases hk : k = n
  · subst hk
    simp only [and_true, if_true]
    by_cases h9 : m < 9
    · have hm : m = 0 ∨ m = 1 ∨ m = 2 ∨ m = 3 ∨ m = 4 ∨ m = 5 ∨ m = 6 ∨ m = 7 ∨ m = 8 := by omega
      rcases hm with rfl | rfl | rfl | rfl | rfl | rfl | rfl | rfl | rfl <;> simp [cellVal, HX, EX, JXI]
    · have : cellVal G func (fun d => c.off r p d + k d) m = 0 := by
        unfold cellVal
        rw [dif_neg (by omega), dif_neg (by omega), dif_neg (by omega)]
      rw [this]
      have h : ∀ a, a < 9 → m ≠ a := fun a ha => by omega
      simp [h, HX, EX, JXI]
  · simp [hk]

theorem runPatch_some (c : Cfg) (G : Geom K) (func : ℕ → R3 K → K) (r p : ℕ) (hv : ∀ n ∈ visited c, Stored c n) (F : PF K) :
    ∃ F', runPatch c func (mkPatch c G r p) F = some F' ∧ ∀ mn,
      F' mn = if mn.2 ∈ visited c then F mn + cellVal G func (fun d => c.off r p d + mn.2 d) mn.1 else F mn := by
  refine ⟨_, Energies.foldlM_some _ (cellStep fun n => cellVal G func fun d => c.off r p d + n d) _ _
    (fun F n hn => setComps_cell c G func r p n (hv n hn) F), fun mn => ?_⟩
  rw [foldl_cellStep _ _ _ (nodup_visited c)]

theorem onPatches_some (c : Cfg) (f : ℕ → ℕ → Option (PF K)) (h : ∀ r p, c.D.Has r p → ∃ F, f r p = some F) :
    ∃ τ, onPatches c f = some τ ∧ ∀ r p, c.D.Has r p → f r p = some (τ r p) := by
  unfold onPatches
  rw [if_pos]
  · refine ⟨_, rfl, fun r p hp => ?_⟩
    obtain ⟨F, hF⟩ := h r p hp
    rw [hF]; rfl
  · rintro ⟨r, p⟩ hrp
    obtain ⟨F, hF⟩ := h r p (Bndp.mem_allPatches.1 hrp)
    rw [hF]; rfl

theorem onPatches_none (c : Cfg) (f : ℕ → ℕ → Option (PF K)) (r p : ℕ) (hp : c.D.Has r p) (h : f r p = none) :
    onPatches c f = none := by
  unfold onPatches
  rw [if_neg]
  intro hh
  have := hh (r, p) (Bndp.mem_allPatches.2 hp)
  rw [h] at this
  simp at this

theorem runPatch_none (c : Cfg) (G : Geom K) (func : ℕ → R3 K → K) (r p : ℕ) (n : I3) (hv : n ∈ visited c) (hn : ¬ Stored c n)
    (F : PF K) : runPatch c func (mkPatch c G r p) F = none := by
  refine Energies.foldlM_none _ _ _ n hv fun F => ?_
  rw [Bndp.foldlM3]
  simp only [setComp, get_pos_FC, addTo, if_neg hn, Option.bind_eq_bind, Option.bind_some, Option.bind_none]

theorem cellVal_H (G : Geom K) (func : ℕ → R3 K → K) (x : I3) (e : Fin 3) :
    cellVal G func x (HX + e) = func (HX + e) (face G e x) := by fin_cases e <;> rfl

theorem cellVal_E (G : Geom K) (func : ℕ → R3 K → K) (x : I3) (e : Fin 3) :
    cellVal G func x (EX + e) = func (EX + e) (edge G e x) := by fin_cases e <;> rfl

theorem cellVal_J (G : Geom K) (func : ℕ → R3 K → K) (x : I3) (e : Fin 3) :
    cellVal G func x (JXI + e) = func (JXI + e) (edge G e x) := by fin_cases e <;> rfl

theorem setupFields_spec (c : Cfg) (w : ℤ) (hg : Ghosts c w) (G : Geom K) (func : ℕ → R3 K → K) (σ : Glob K) :
    ∃ τ, setupFields c G func σ = some τ ∧ Sampled c G func σ τ ∧
      ∀ r p, c.D.Has r p → ∀ m n, (¬ Stored c n ∨ 9 ≤ m) → τ r p (m, n) = σ r p (m, n) := by
  have hr := fun r p => runPatch_some c G func r p (fun n hn => (hg.visited n).1 hn) (σ r p)
  obtain ⟨τ, h1, h2⟩ := onPatches_some c (fun r p => runPatch c func (mkPatch c G r p) (σ r p))
    fun r p _ => (hr r p).imp fun _ h => h.1
  have h3 : ∀ r p, c.D.Has r p → ∀ mn, τ r p mn =
      if mn.2 ∈ visited c then σ r p mn + cellVal G func (fun d => c.off r p d + mn.2 d) mn.1 else σ r p mn := by
    intro r p hp
    obtain ⟨F, e, hF⟩ := hr r p
    have := h2 r p hp
    rw [e, Option.some.injEq] at this
    rw [← this]
    exact hF
  refine ⟨τ, h1, fun r p hp n hn e => ?_, fun r p hp m n h => ?_⟩
  · simp only [h3 r p hp, if_pos ((hg.visited n).2 hn), cellVal_H, cellVal_E, cellVal_J, and_self]
  · rw [h3 r p hp]
    rcases h with h | h
    · rw [if_neg (fun hv => h ((hg.visited n).1 hv))]
    · have : cellVal G func (fun d => c.off r p d + n d) m = 0 := by
        unfold cellVal
        rw [dif_neg (by omega), dif_neg (by omega), dif_neg (by omega)]
      simp only [this, add_zero, ite_self]

theorem scalar_some (c : Cfg) (w : ℤ) (hg : Ghosts c w) (G : Geom K) (ce : Centering) (pos : I3 → R3 K)
    (hce : ∀ r p n, get_pos (mkPatch c G r p) n ce (-1) = some (pos fun d => c.off r p d + n d)) (func : ℕ → R3 K → K)
    (σ : Glob K) :
    ∃ τ, setupScalarField c G ce func σ = some τ ∧ ∀ r p, c.D.Has r p → ∀ n, Stored c n →
      τ r p (0, n) = σ r p (0, n) + func 0 (pos fun d => c.off r p d + n d) := by
  have hr : ∀ r p, runScalarPatch c ce func (mkPatch c G r p) (σ r p) = some ((visited c).foldl
      (cellStep fun n m => if m = 0 then func 0 (pos fun d => c.off r p d + n d) else 0) (σ r p)) := by
    intro r p
    refine Energies.foldlM_some _ _ _ _ fun F n hn => ?_
    simp only [hce, addTo, if_pos ((hg.visited n).1 hn), Option.bind_eq_bind, Option.bind_some]
    congr 1
    funext mn
    obtain ⟨m, k⟩ := mn
    unfold cellStep
    simp only [Prod.mk.injEq]
    by_cases hk : k = n <;> by_cases hm : m = 0 <;> simp [hk, hm]
  obtain ⟨τ, h1, h2⟩ := onPatches_some c (fun r p => runScalarPatch c ce func (mkPatch c G r p) (σ r p))
    fun r p _ => ⟨_, hr r p⟩
  refine ⟨τ, h1, fun r p hp n hn => ?_⟩
  have := h2 r p hp
  rw [hr, Option.some.injEq] at this
  rw [← this, foldl_cellStep _ _ _ (nodup_visited c), if_pos ((hg.visited n).2 hn), if_pos rfl]

theorem wrap_interior {c : Cfg} (hc : c.Ok) {r p : ℕ} (hp : c.D.Has r p) {n : I3} (hn : Interior c n) :
    wrap c (fun d => c.off r p d + n d) = fun d => c.off r p d + n d := by
  funext d
  have hi := (Props.C25_idx3_owner c.D hc.valid r p hp).1 d
  have := hn d
  show (if c.D.bc d = true then (c.off r p d + n d) % c.gdims d else c.off r p d + n d) = _
  by_cases hb : c.D.bc d = true
  · rw [if_pos hb]
    have h0 : (0 : ℤ) ≤ c.D.idx3 r p d := by omega
    have h1 : (c.D.idx3 r p d : ℤ) + 1 ≤ c.D.np d := by omega
    apply Int.emod_eq_of_lt
    · unfold Cfg.off
      have := mul_nonneg h0 (by omega : (0:ℤ) ≤ c.ldims d)
      omega
    · unfold Cfg.off Cfg.gdims
      have := mul_le_mul_of_nonneg_right h1 (by omega : (0:ℤ) ≤ c.ldims d)
      rw [add_mul, one_mul] at this
      omega
  · rw [if_neg hb]

open BndFields in
theorem startB_spec {c : Cfg} {g : GridP K} {b : BndP K} (h : FitsB c g b) (hb : Supported b) {w : ℤ} (hg : Ghosts c w)
    (corner : R3 K) (func : ℕ → R3 K → K) :
    ∃ τ, startB c g b corner func = some τ ∧
      (∀ m, EX ≤ m → m < EX + 6 → ∃ G : I3 → K, Periodic c G ∧ HoldsIn c τ m G) ∧
      (∀ r p, c.D.Has r p → ∀ n, Interior c n → ∀ e : Fin 3,
        τ r p (HX + e, n) = func (HX + e) (face ⟨g.dx, corner⟩ e fun d => c.off r p d + n d) ∧
        ((∀ d, d ≠ e → g.inv d = false → c.D.bc d = false → c.off r p d + n d ≠ 0) →
          τ r p (EX + e, n) = func (EX + e) (edge ⟨g.dx, corner⟩ e fun d => c.off r p d + n d))) ∧
      ∀ d, (b.fld_lo d = .conducting → NoTangentialLo c d τ) ∧ (b.fld_hi d = .conducting → NoTangentialHi c d τ) := by
  obtain ⟨σ, e0, hs, -⟩ := setupFields_spec c w hg ⟨g.dx, corner⟩ func fresh
  obtain ⟨s1, k1⟩ := bndAll_total (c := c) (fun r p F => fillH_total (c := c) (g := g) hb r p F) σ
  obtain ⟨s2, k2⟩ := fillAll_total h.ok HX (HX + 3) (by omega) s1
  obtain ⟨s3, k3⟩ := fillAll_total h.ok JXI (JXI + 3) (by omega) s2
  obtain ⟨s4, k4⟩ := bndAll_total (c := c) (fun r p F => fillE_total (c := c) (g := g) hb r p F) s3
  obtain ⟨s5, k5⟩ := fillAll_total h.ok EX (EX + 3) (by omega) s4
  obtain ⟨a2, b2⟩ := fillAllB_spec h.ok h.c_pos HX (HX + 3) (by omega) k2
  obtain ⟨a3, b3⟩ := fillAllB_spec h.ok h.c_pos JXI (JXI + 3) (by omega) k3
  obtain ⟨a5, b5⟩ := fillAllB_spec h.ok h.c_pos EX (EX + 3) (by omega) k5
  have hH : ∀ r p, c.D.Has r p → ∀ (e : Fin 3) n, s5 r p (HX + e, n) = s2 r p (HX + e, n) := by
    intro r p hp e n
    rw [b5 r p hp _ _ (.inr (.inr (.inr (.inr (by unfold HX EX; omega))))),
      fillE_frame h (bndAll_some k4 hp) _ (by rintro ⟨m, hm, -⟩; simp only [HX, EX] at hm; omega),
      b3 r p hp _ _ (.inr (.inr (.inr (.inr (by unfold HX JXI; omega)))))]
  refine ⟨s5, ?_, fun m h1 h2 => ?_, fun r p hp n hn e => ⟨?_, fun hx => ?_⟩, fun d => elWall h k4 k5 d⟩
  · simp only [startB, pre_first_stepB, e0, k1, k2, k3, k4, k5, Option.bind_eq_bind, Option.bind_some]
  · by_cases hm : m < HX
    · obtain ⟨G, pG, oG⟩ := exists_ownedB h.ok h.c_pos s4 m
      exact ⟨G, pG, a5 _ _ h1 (by unfold HX EX at *; omega) pG oG⟩
    · obtain ⟨G, pG, oG⟩ := exists_ownedB h.ok h.c_pos s1 m
      have hG := a2 m G (by omega) (by unfold HX EX at *; omega) pG oG
      refine ⟨G, pG, hG.congr fun r p hp n _ _ => ?_⟩
      have := hH r p hp ⟨m - HX, by unfold HX EX at *; omega⟩ n
      simpa only [show HX + (m - HX) = m by omega] using this
  · rw [hH r p hp, b2 r p hp _ _ (.inl hn), fillH_frame h (bndAll_some k1 hp), (hs r p hp n (interior_stored h.ok hn) e).1]
    · simp only [fresh, zero_add]
    · rintro ⟨m, -, e, -, hb, ht⟩
      rcases interior_inDomain h.ok hp hn e with h0 | h0
      · rw [h0] at hb; cases hb
      · simp only at ht; omega
  · rw [b5 r p hp _ _ (.inl hn), fillE_frame h (bndAll_some k4 hp),
      b3 r p hp _ _ (.inl hn), b2 r p hp _ _ (.inl hn), fillH_frame h (bndAll_some k1 hp),
      (hs r p hp n (interior_stored h.ok hn) e).2.1]
    · simp only [fresh, zero_add]
    · rintro ⟨m, hm, -⟩; simp only [HX, EX] at hm; omega
    · rintro ⟨m, hm, d, hi, hbc, ht⟩
      simp only at hm ht
      have hme : m = e := Fin.ext (by omega)
      subst hme
      rcases interior_inDomain h.ok hp hn d with h0 | h0
      · rw [h0] at hbc; cases hbc
      · rcases ht with ht | ht | ⟨ht, hne⟩
        · omega
        · omega
        · exact hx d (fun h => hne h.symm) hi hbc ht

end

noncomputable section

open Pic

theorem start_spec {S : Setup} {w w' : ℤ} (hF : Fit S w) (hw : 2 ≤ w) (hg : Ghosts S.c w') (corner : R3 ℝ)
    (func : ℕ → R3 ℝ → ℝ) (prts : ℕ → ℕ → List Push.Prt) :
    ∃ flds, start S.c ⟨S.P.dx, corner⟩ func = some flds ∧
      Represents S ⟨prts, flds⟩ (initial S.problem ⟨S.P.dx, corner⟩ func (globalPrts S prts)) ∧
      ∀ e : Fin 3, Holds S.c flds (JXI + e) fun x => func (JXI + e) (edge ⟨S.P.dx, corner⟩ e (S.problem.wrapI x)) := by
  have h := hF.fits hw
  obtain ⟨σ, e0, hs, -⟩ := setupFields_spec S.c w' hg ⟨S.P.dx, corner⟩ func fresh
  obtain ⟨σ1, e1, a1, b1⟩ := fillAll_spec h HX (HX + 3) (by omega) σ
  obtain ⟨σ2, e2, a2, b2⟩ := fillAll_spec h JXI (JXI + 3) (by omega) σ1
  obtain ⟨σ3, e3, a3, b3⟩ := fillAll_spec h EX (EX + 3) (by omega) σ2
  have hwr : ∀ x y, wrap S.c x = wrap S.c y → S.problem.wrapI x = S.problem.wrapI y := fun x y h => h
  have hin : ∀ r p, S.c.D.Has r p → ∀ n, Interior S.c n →
      S.problem.wrapI (fun d => S.c.off r p d + n d) = fun d => S.c.off r p d + n d :=
    fun r p hp n hn => wrap_interior hF.valid hp hn
  have perE : ∀ e : Fin 3, Periodic S.c ((initial S.problem ⟨S.P.dx, corner⟩ func (globalPrts S prts)).E e) :=
    fun e x y hxy => by simp only [initial, hwr x y hxy]
  have perH : ∀ e : Fin 3, Periodic S.c ((initial S.problem ⟨S.P.dx, corner⟩ func (globalPrts S prts)).H e) :=
    fun e x y hxy => by simp only [initial, hwr x y hxy]
  have ownE : ∀ e : Fin 3, Owns S.c σ2 (EX + e) ((initial S.problem ⟨S.P.dx, corner⟩ func (globalPrts S prts)).E e) := by
    intro e r p hp n hn
    rw [b2 _ (by unfold EX JXI; omega) r p hp, b1 _ (by unfold EX HX; omega) r p hp,
      (hs r p hp n (interior_stored hF.valid hn) e).2.1]
    simp only [initial, hin r p hp n hn, fresh, zero_add]
  have ownH : ∀ e : Fin 3, Owns S.c σ (HX + e) ((initial S.problem ⟨S.P.dx, corner⟩ func (globalPrts S prts)).H e) := by
    intro e r p hp n hn
    rw [(hs r p hp n (interior_stored hF.valid hn) e).1]
    simp only [initial, hin r p hp n hn, fresh, zero_add]
  have ownJ : ∀ e : Fin 3, Owns S.c σ1 (JXI + e)
      fun x => func (JXI + e) (edge ⟨S.P.dx, corner⟩ e (S.problem.wrapI x)) := by
    intro e r p hp n hn
    rw [b1 _ (by unfold JXI HX; omega) r p hp, (hs r p hp n (interior_stored hF.valid hn) e).2.2]
    simp only [hin r p hp n hn, fresh, zero_add]
  refine ⟨σ3, ?_, ⟨List.Perm.refl _, perE, perH, fun e => ?_, fun e => ?_⟩, fun e => ?_⟩
  · simp only [start, pre_first_step, e0, e1, e2, e3, Option.bind_eq_bind, Option.bind_some]
  · exact a3 _ _ (by omega) (by omega) (perE e) (ownE e)
  · intro r p hp n hn
    show σ3 r p (HX + e, n) = _
    rw [b3 _ (by unfold HX EX; omega) r p hp, b2 _ (by unfold HX JXI; omega) r p hp]
    exact a1 _ _ (by omega) (by omega) (perH e) (ownH e) r p hp n hn
  · intro r p hp n hn
    show σ3 r p (JXI + e, n) = _
    rw [b3 _ (by unfold JXI EX; omega) r p hp]
    exact a2 _ _ (by omega) (by omega) (fun x y hxy => by simp only [hwr x y hxy]) (ownJ e) r p hp n hn

end

end Psc.SetupFields
