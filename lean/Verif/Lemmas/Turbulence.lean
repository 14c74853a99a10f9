import Verif.Spec.Turbulence
import Verif.Lemmas.SetupFields
import Verif.Props.Domain

/-!
# Lemmas for C83
-/

namespace Psc.Turb

open Domain Ddc FieldStep Fields SetupFields

noncomputable section

variable {P : Par} {w : ℤ}

/-! ## Cells -/

theorem vec_eta (m : I3) : (![m 0, m 1, m 2] : I3) = m := by funext d; fin_cases d <;> rfl

theorem mem_cells (c : Cfg) (l r : ℤ) (n : I3) :
    n ∈ cells c l r ↔ ∀ d, (if isInvar c d then 0 else -l) ≤ n d ∧ n d < c.ldims d + if isInvar c d then 0 else r := by
  unfold cells
  rw [List.mem_map]
  constructor
  · rintro ⟨⟨i, j, k⟩, h, rfl⟩
    exact mem_foreach3d.1 h
  · intro h
    refine ⟨(n 0, n 1, n 2), mem_foreach3d.2 ?_, vec_eta n⟩
    intro d
    rw [vec_eta]
    exact h d

theorem nodup_cells (c : Cfg) (l r : ℤ) : (cells c l r).Nodup := by
  refine (nodup_foreach3d _ _ _ _).map ?_
  rintro ⟨i, j, k⟩ ⟨i', j', k'⟩ h
  have h0 := congrFun h 0
  have h1 := congrFun h 1
  have h2 := congrFun h 2
  simp at h0 h1 h2
  rw [h0, h1, h2]

theorem cells_all (hg : Ghosts P.c w) (n : I3) : n ∈ cells P.c (n_ghosts P.c) (n_ghosts P.c) ↔ Stored P.c n :=
  hg.visited n

theorem inv_ldims {c : Cfg} (hg : Ghosts c w) {d : Fin 3} (h : c.gdims d = 1) : c.ldims d = 1 := by
  have h0 := hg.ldims d
  unfold Cfg.gdims at h
  have h1 : c.ldims d ∣ 1 := ⟨c.D.np d, by rw [mul_comm]; exact h.symm⟩
  exact Int.eq_one_of_dvd_one h0.le h1

theorem cells_near (hg : Ghosts P.c w) (n : I3) : n ∈ cells P.c 2 1 ↔ Near P.c n := by
  rw [mem_cells]
  refine forall_congr' fun d => ?_
  by_cases hd : P.c.gdims d = 1
  · simp only [isInvar, hd, decide_true, if_true, inv_ldims hg hd]
    omega
  · simp only [isInvar, hd, decide_false, if_false, Bool.false_eq_true]
    omega

theorem cells_interior (hg : Ghosts P.c w) (n : I3) : n ∈ cells P.c 0 0 ↔ Interior P.c n := by
  rw [mem_cells]
  refine forall_congr' fun d => ?_
  split_ifs <;> omega

theorem near_stored (hF : Fit P w) {n : I3} (h : Near P.c n) : Stored P.c n := by
  intro d
  have := h d
  have h2 := hF.two
  by_cases hd : P.c.gdims d = 1
  · rw [if_pos hd] at this
    rw [hF.ghosts.inv d hd, inv_ldims hF.ghosts hd]; omega
  · rw [if_neg hd] at this
    rw [hF.ghosts.act d hd]; omega

theorem cl_eq (hF : Fit P w) (n : I3) (d : Fin 3) : cl P.c n d = if P.c.gdims d = 1 then 0 else n d := by
  unfold cl
  have h2 := hF.two
  have h0 := hF.ghosts.ldims d
  by_cases hd : P.c.gdims d = 1
  · rw [if_pos hd, hF.ghosts.inv d hd, inv_ldims hF.ghosts hd]; simp
  · rw [if_neg hd, hF.ghosts.act d hd, if_neg (by omega)]

/-- reading a component that holds a periodic function -/
theorem get_some (hF : Fit P w) {f : I3 → ℝ} (hf : Periodic P.c.gdims f) {F : PF ℝ} {m : ℕ} {o : I3} {R : I3 → Prop}
    (hR : ∀ n, R n → Stored P.c n) (hA : ∀ n, R n → F (m, n) = f fun d => o d + n d) {n : I3} (hn : R (cl P.c n)) :
    get P.c F m n = some (f fun d => o d + n d) := by
  unfold get
  rw [if_pos (hR _ hn), hA _ hn]
  congr 1
  refine hf _ _ fun d => ?_
  simp only [cl_eq hF]
  by_cases hd : P.c.gdims d = 1
  · rw [hd]; exact one_dvd _
  · rw [if_neg hd]; simp

theorem cl_stored_up (hF : Fit P w) {n : I3} (hn : Near P.c n) (d : Fin 3) : Stored P.c (cl P.c (up d n)) := by
  intro i
  rw [cl_eq hF]
  have h2 := hF.two
  have := hn i
  by_cases hd : P.c.gdims i = 1
  · rw [if_pos hd, hF.ghosts.inv i hd, inv_ldims hF.ghosts hd]; omega
  · rw [if_neg hd] at this ⊢
    rw [hF.ghosts.act i hd]
    unfold up
    split_ifs <;> omega

theorem cl_near_up (hF : Fit P w) {n : I3} (hn : Interior P.c n) (d : Fin 3) : Near P.c (cl P.c (up d n)) := by
  intro i
  rw [cl_eq hF]
  have := hn i
  split_ifs with h
  · rfl
  · unfold up
    split_ifs <;> omega

theorem cl_near (hF : Fit P w) {n : I3} (hn : Interior P.c n) : Near P.c (cl P.c n) := by
  intro i
  rw [cl_eq hF]
  have := hn i
  split_ifs with h
  · rfl
  · omega

theorem cl_self (hF : Fit P w) {n : I3} (hn : Stored P.c n) : cl P.c n = n := by
  funext d
  rw [cl_eq hF]
  have := hn d
  split_ifs with h
  · rw [hF.ghosts.inv d h, inv_ldims hF.ghosts h] at this; omega
  · rfl

/-! ## Loops -/

/-- one cell of a loop that touches only its own cell -/
def cellMap (val : I3 → ℕ → ℝ → ℝ) (F : PF ℝ) (n : I3) : PF ℝ := fun mn => if mn.2 = n then val n mn.1 (F mn) else F mn

theorem foldl_cellMap (val : I3 → ℕ → ℝ → ℝ) : ∀ (l : List I3) (F : PF ℝ), l.Nodup → ∀ mn,
    l.foldl (cellMap val) F mn = if mn.2 ∈ l then val mn.2 mn.1 (F mn) else F mn
  | [], F, _, mn => by simp
  | n :: l, F, h, mn => by
    rw [List.foldl_cons, foldl_cellMap val l _ (List.nodup_cons.1 h).2]
    have hn := (List.nodup_cons.1 h).1
    unfold cellMap
    by_cases h1 : mn.2 = n
    · rw [h1, if_neg hn]
      simp
    · simp [h1]

theorem loop_some {c : Cfg} {l r : ℤ} {f : PF ℝ → I3 → Option (PF ℝ)} (val : I3 → ℕ → ℝ → ℝ)
    (h : ∀ F, ∀ n ∈ cells c l r, f F n = some (cellMap val F n)) (F : PF ℝ) :
    ∃ F', (cells c l r).foldlM f F = some F' ∧ ∀ mn, F' mn = if mn.2 ∈ cells c l r then val mn.2 mn.1 (F mn) else F mn :=
  ⟨_, Energies.foldlM_some _ (cellMap val) _ _ h, fun mn => by rw [foldl_cellMap _ _ _ (nodup_cells c l r)]⟩

/-- a loop over all patches, each with a loop over cells -/
theorem patches_some {c : Cfg} {l r : ℤ} (f : ℕ → ℕ → PF ℝ → I3 → Option (PF ℝ)) (val : ℕ → ℕ → I3 → ℕ → ℝ → ℝ)
    (h : ∀ r' p, c.D.Has r' p → ∀ F, ∀ n ∈ cells c l r, f r' p F n = some (cellMap (val r' p) F n)) (σ : Glob ℝ) :
    ∃ τ, onPatches c (fun r' p => (cells c l r).foldlM (f r' p) (σ r' p)) = some τ ∧ ∀ r' p, c.D.Has r' p → ∀ mn,
      τ r' p mn = if mn.2 ∈ cells c l r then val r' p mn.2 mn.1 (σ r' p mn) else σ r' p mn := by
  obtain ⟨τ, h1, h2⟩ := onPatches_some c (fun r' p => (cells c l r).foldlM (f r' p) (σ r' p)) fun r' p hp =>
    (loop_some (val r' p) (h r' p hp) (σ r' p)).imp fun _ h => h.1
  refine ⟨τ, h1, fun r' p hp => ?_⟩
  obtain ⟨F', e1, e2⟩ := loop_some (val r' p) (h r' p hp) (σ r' p)
  rw [h2 r' p hp] at e1
  obtain rfl := Option.some.inj e1
  exact e2

/-! ## Background -/

theorem background_spec (hF : Fit P w) (σ : Glob ℝ) :
    ∃ τ, add_background_fields P σ = some τ ∧ ∀ r p, P.c.D.Has r p → ∀ n, Stored P.c n → ∀ e : Fin 3,
      τ r p (HX + e, n) = σ r p (HX + e, n) + P.bg_h e ∧ τ r p (EX + e, n) = σ r p (EX + e, n) + P.bg_e e := by
  obtain ⟨τ, h1, h2⟩ := patches_some (c := P.c) (l := n_ghosts P.c) (r := n_ghosts P.c) (fun _ _ F n => do
      let F ← addTo P.c F (HX + 0) n (P.bg_h 0)
      let F ← addTo P.c F (HX + 1) n (P.bg_h 1)
      let F ← addTo P.c F (HX + 2) n (P.bg_h 2)
      let F ← addTo P.c F (EX + 0) n (P.bg_e 0)
      let F ← addTo P.c F (EX + 1) n (P.bg_e 1)
      addTo P.c F (EX + 2) n (P.bg_e 2))
    (fun _ _ _ m v => if m = 6 then v + P.bg_h 0 else if m = 7 then v + P.bg_h 1 else if m = 8 then v + P.bg_h 2
      else if m = 3 then v + P.bg_e 0 else if m = 4 then v + P.bg_e 1 else if m = 5 then v + P.bg_e 2 else v)
    (fun r' p _ F n hn => by
      have hs := (cells_all hF.ghosts n).1 hn
      simp only [addTo, if_pos hs, Option.bind_eq_bind, Option.bind_some]
      congr 1
      funext mn
      obtain ⟨m, k⟩ := mn
      unfold cellMap
      simp only [Prod.mk.injEq]
      by_cases hk : k = n
      · subst hk
        simp only [and_true, if_true, HX, EX]
        by_cases h9 : m < 9
        · have hm : m = 0 ∨ m = 1 ∨ m = 2 ∨ m = 3 ∨ m = 4 ∨ m = 5 ∨ m = 6 ∨ m = 7 ∨ m = 8 := by omega
          rcases hm with rfl | rfl | rfl | rfl | rfl | rfl | rfl | rfl | rfl <;> simp
        · have h : ∀ a, a < 9 → m ≠ a := fun a ha => by omega
          simp [h]
      · simp [hk]) σ
  refine ⟨τ, h1, fun r p hp n hn e => ?_⟩
  have hm := (cells_all hF.ghosts n).2 hn
  rw [h2 r p hp, h2 r p hp]
  simp only [if_pos hm]
  fin_cases e <;> simp [HX, EX]

/-! ## Waves -/

theorem addWave_spec (hF : Fit P w) (A : Glob ℝ) (u : ℕ → Fin 3 → R3 ℝ → ℝ) :
    ∃ τ, addWave P A u = some τ ∧ ∀ r p, P.c.D.Has r p → ∀ n, Stored P.c n → ∀ e : Fin 3,
      τ r p (e, n) = A r p (e, n) + u r e (edge P.geom e fun d => P.c.off r p d + n d) := by
  obtain ⟨τ, h1, h2⟩ := patches_some (c := P.c) (l := n_ghosts P.c) (r := n_ghosts P.c) (fun r p A n => do
      let x0 ← get_pos (mkPatch P.c P.geom r p) n .EC 0
      let x1 ← get_pos (mkPatch P.c P.geom r p) n .EC 1
      let x2 ← get_pos (mkPatch P.c P.geom r p) n .EC 2
      let A ← addTo P.c A 0 n (u r 0 x0)
      let A ← addTo P.c A 1 n (u r 1 x1)
      addTo P.c A 2 n (u r 2 x2))
    (fun r p n m v => if h : m < 3 then v + u r ⟨m, h⟩ (edge P.geom ⟨m, h⟩ fun d => P.c.off r p d + n d) else v)
    (fun r' p _ F n hn => by
      have hs := (cells_all hF.ghosts n).1 hn
      have e0 := get_pos_EC P.c P.geom r' p n 0
      have e1 := get_pos_EC P.c P.geom r' p n 1
      have e2 := get_pos_EC P.c P.geom r' p n 2
      simp only [Fin.isValue, Fin.val_zero, Nat.cast_zero, Fin.val_one, Nat.cast_one, Fin.val_two, Nat.cast_ofNat] at e0 e1 e2
      simp only [e0, e1, e2, addTo, if_pos hs, Option.bind_eq_bind, Option.bind_some]
      congr 1
      funext mn
      obtain ⟨m, k⟩ := mn
      unfold cellMap
      simp only [Prod.mk.injEq]
      by_cases hk : k = n
      · subst hk
        simp only [and_true, if_true]
        by_cases h9 : m < 3
        · have hm : m = 0 ∨ m = 1 ∨ m = 2 := by omega
          rcases hm with rfl | rfl | rfl <;> simp <;> rfl
        · have h : ∀ a, a < 3 → m ≠ a := fun a ha => by omega
          simp [h, h9]
      · simp [hk]) A
  refine ⟨τ, h1, fun r p hp n hn e => ?_⟩
  rw [h2 r p hp]
  simp only [if_pos ((cells_all hF.ghosts n).2 hn), dif_pos e.2]

/-- a list of waves -/
theorem waves_spec (hF : Fit P w) {α : Type} (u : ℕ → α → Fin 3 → R3 ℝ → ℝ) : ∀ (l : List α) (A : Glob ℝ),
    ∃ τ, l.foldlM (fun A g => addWave P A fun r => u r g) A = some τ ∧ ∀ r p, P.c.D.Has r p → ∀ n, Stored P.c n → ∀ e : Fin 3,
      τ r p (e, n) = A r p (e, n) + (l.map fun g => u r g e (edge P.geom e fun d => P.c.off r p d + n d)).sum
  | [], A => ⟨A, rfl, fun r p _ n _ e => by simp⟩
  | g :: l, A => by
    obtain ⟨τ1, h1, h2⟩ := addWave_spec hF A fun r => u r g
    obtain ⟨τ, h3, h4⟩ := waves_spec hF u l τ1
    refine ⟨τ, ?_, fun r p hp n hn e => ?_⟩
    · rw [List.foldlM_cons, h1]
      exact h3
    · rw [h4 r p hp n hn e, h2 r p hp n hn e, List.map_cons, List.sum_cons, add_assoc]

/-! ## Curl -/

theorem curl_spec (hF : Fit P w) (A σ : Glob ℝ) (a : ℕ → Fin 3 → I3 → ℝ) (ha : ∀ r e, Periodic P.c.gdims (a r e))
    (hA : ∀ r p, P.c.D.Has r p → ∀ n, Stored P.c n → ∀ e : Fin 3, A r p (e, n) = a r e fun d => P.c.off r p d + n d) :
    ∃ τ, inject_b_from_potential P A σ = some τ ∧ ∀ r p, P.c.D.Has r p → ∀ n,
      (Near P.c n → ∀ e : Fin 3, τ r p (HX + e, n) = curl (a r) e fun d => P.c.off r p d + n d) ∧
      ∀ e : Fin 3, τ r p (EX + e, n) = σ r p (EX + e, n) := by
  obtain ⟨τ, h1, h2⟩ := patches_some (c := P.c) (l := 2) (r := 1) (fun r p => curlCell P.c (A r p))
    (fun r p n m v => if m = 6 then curl (a r) 0 (fun d => P.c.off r p d + n d)
      else if m = 7 then curl (a r) 1 (fun d => P.c.off r p d + n d)
      else if m = 8 then curl (a r) 2 (fun d => P.c.off r p d + n d) else v)
    (fun r p hp F n hn => by
      have hn := (cells_near hF.ghosts n).1 hn
      have hs := near_stored hF hn
      have g0 : ∀ e : Fin 3, get P.c (A r p) e n = some (a r e fun d => P.c.off r p d + n d) := fun e =>
        get_some hF (ha r e) (R := Stored P.c) (fun _ h => h) (fun k hk => hA r p hp k hk e) (by rw [cl_self hF hs]; exact hs)
      have g1 : ∀ e d : Fin 3, get P.c (A r p) e (up d n) = some (a r e (up d fun d => P.c.off r p d + n d)) := fun e d => by
        rw [get_some hF (ha r e) (R := Stored P.c) (fun _ h => h) (fun k hk => hA r p hp k hk e) (cl_stored_up hF hn d)]
        congr 2
        funext i
        simp only [up, add_assoc]
      have ux : (![n 0 + 1, n 1, n 2] : I3) = up 0 n := by funext d; fin_cases d <;> simp [up]
      have uy : (![n 0, n 1 + 1, n 2] : I3) = up 1 n := by funext d; fin_cases d <;> simp [up]
      have uz : (![n 0, n 1, n 2 + 1] : I3) = up 2 n := by funext d; fin_cases d <;> simp [up]
      have a0 := g0 0; have a1 := g0 1; have a2 := g0 2
      have b01 := g1 0 1; have b02 := g1 0 2; have b10 := g1 1 0; have b12 := g1 1 2; have b20 := g1 2 0; have b21 := g1 2 1
      simp only [Fin.isValue, Fin.val_zero, Fin.val_one, Fin.val_two] at a0 a1 a2 b01 b02 b10 b12 b20 b21
      unfold curlCell
      simp only [ux, uy, uz, a0, a1, a2, b01, b02, b10, b12, b20, b21, setTo, if_pos hs, Option.bind_eq_bind, Option.bind_some]
      congr 1
      funext mn
      obtain ⟨m, k⟩ := mn
      unfold cellMap
      simp only [Prod.mk.injEq]
      by_cases hk : k = n
      · subst hk
        simp only [and_true, if_true, HX]
        by_cases h6 : m = 6
        · subst h6; simp [curl]; ring
        · by_cases h7 : m = 7
          · subst h7; simp [curl]; ring
          · by_cases h8 : m = 8
            · subst h8; simp [curl]; ring
            · simp [h6, h7, h8]
      · simp [hk]) σ
  refine ⟨τ, h1, fun r p hp n => ⟨fun hn e => ?_, fun e => ?_⟩⟩
  · rw [h2 r p hp]
    simp only [if_pos ((cells_near hF.ghosts n).2 hn)]
    fin_cases e <;> simp [HX]
  · rw [h2 r p hp]
    have e6 : EX + (e : ℕ) ≠ 6 := by simp only [EX]; omega
    have e7 : EX + (e : ℕ) ≠ 7 := by simp only [EX]; omega
    have e8 : EX + (e : ℕ) ≠ 8 := by simp only [EX]; omega
    simp only [e6, e7, e8, if_false, ite_self]

/-! ## Sums over the box -/

/-- every cell of the box belongs to a patch -/
theorem cover {c : Cfg} (hD : c.D.Valid) (hL : ∀ d, 0 < c.ldims d) {x : I3} (hx : ∀ d, 0 ≤ x d ∧ x d < c.gdims d) :
    ∃ r p n, c.D.Has r p ∧ Interior c n ∧ (fun d => c.off r p d + n d) = x := by
  have q0 : ∀ d, 0 ≤ x d / c.ldims d := fun d => Int.ediv_nonneg (hx d).1 (hL d).le
  have q1 : ∀ d, x d / c.ldims d < c.D.np d := fun d => Int.ediv_lt_of_lt_mul (hL d) (hx d).2
  obtain ⟨r, p, -, hp, hi⟩ := Props.C25_owner_idx3 c.D hD (fun d => (x d / c.ldims d).toNat) (by
    intro d; have := q0 d; have := q1 d; show (x d / c.ldims d).toNat < c.D.np d; omega)
  refine ⟨r, p, fun d => x d % c.ldims d, hp, fun d => ⟨Int.emod_nonneg _ (hL d).ne', Int.emod_lt_of_pos _ (hL d)⟩, ?_⟩
  funext d
  simp only [Cfg.off, hi]
  rw [Int.toNat_of_nonneg (q0 d)]
  exact Int.ediv_mul_add_emod (x d) (c.ldims d)

/-- and to no other -/
theorem cover_unique {c : Cfg} (hD : c.D.Valid) (hL : ∀ d, 0 < c.ldims d) {r p r' p' : ℕ} (h : c.D.Has r p)
    (h' : c.D.Has r' p') {n n' : I3} (hn : Interior c n) (hn' : Interior c n')
    (e : ∀ d, c.off r p d + n d = c.off r' p' d + n' d) : r = r' ∧ p = p' ∧ n = n' := by
  have ei : c.D.idx3 r p = c.D.idx3 r' p' := by
    funext d
    have := e d
    unfold Cfg.off at this
    have h1 := hn d
    have h2 := hn' d
    have a : ((c.D.idx3 r p d : ℤ) * c.ldims d + n d) / c.ldims d = c.D.idx3 r p d := by
      rw [add_comm, Int.add_mul_ediv_right _ _ (hL d).ne', Int.ediv_eq_zero_of_lt h1.1 h1.2, zero_add]
    have b : ((c.D.idx3 r' p' d : ℤ) * c.ldims d + n' d) / c.ldims d = c.D.idx3 r' p' d := by
      rw [add_comm, Int.add_mul_ediv_right _ _ (hL d).ne', Int.ediv_eq_zero_of_lt h2.1 h2.2, zero_add]
    rw [this, b] at a
    exact_mod_cast a.symm
  have o1 := (Props.C25_idx3_owner c.D hD r p h).2
  have o2 := (Props.C25_idx3_owner c.D hD r' p' h').2
  rw [ei, o2] at o1
  simp only [Option.some.injEq, Prod.mk.injEq] at o1
  obtain ⟨rfl, rfl⟩ := o1
  refine ⟨rfl, rfl, funext fun d => ?_⟩
  have := e d
  simpa using this

theorem mem_box {gd x : I3} : x ∈ box gd ↔ ∀ d, 0 ≤ x d ∧ x d < gd d := by
  simp [box, Fintype.mem_piFinset]

theorem off_bounds {c : Cfg} (hD : c.D.Valid) {r p : ℕ} (h : c.D.Has r p) (d : Fin 3) : c.D.idx3 r p d < c.D.np d :=
  (Props.C25_idx3_owner c.D hD r p h).1 d

theorem sum_box {c : Cfg} (hD : c.D.Valid) (hL : ∀ d, 0 < c.ldims d) (l : List I3) (hl : l.Nodup)
    (hm : ∀ n, n ∈ l ↔ Interior c n) (f : I3 → ℝ) :
    ((Bndp.allPatches c.D).map fun rp => (l.map fun n => f fun d => c.off rp.1 rp.2 d + n d).sum).sum = ∑ x ∈ box c.gdims, f x := by
  classical
  have e1 : ((Bndp.allPatches c.D).map fun rp => (l.map fun n => f fun d => c.off rp.1 rp.2 d + n d).sum).sum =
      (((Bndp.allPatches c.D).flatMap fun rp => l.map fun n => (fun d => c.off rp.1 rp.2 d + n d : I3)).map f).sum := by
    generalize Bndp.allPatches c.D = L
    induction L with
    | nil => rfl
    | cons a L ih =>
      rw [List.map_cons, List.sum_cons, ih, List.flatMap_cons, List.map_append, List.sum_append, List.map_map]
      rfl
  have e2 : ((Bndp.allPatches c.D).flatMap fun rp => l.map fun n => (fun d => c.off rp.1 rp.2 d + n d : I3)).Nodup := by
    rw [List.nodup_flatMap]
    refine ⟨fun rp _ => hl.map fun a b h => ?_, ?_⟩
    · funext d
      have := congrFun h d
      simpa using this
    · refine List.Pairwise.imp_of_mem ?_ (Bndp.nodup_allPatches c.D)
      intro a b ha hb hab
      rw [Function.onFun, List.disjoint_left]
      intro x hx hx'
      simp only [List.mem_map] at hx hx'
      obtain ⟨n, hn, rfl⟩ := hx
      obtain ⟨n', hn', e⟩ := hx'
      obtain ⟨q1, q2, -⟩ := cover_unique hD hL (Bndp.mem_allPatches.1 hb) (Bndp.mem_allPatches.1 ha) ((hm n').1 hn') ((hm n).1 hn)
        fun d => congrFun e d
      exact hab (Prod.ext q1.symm q2.symm)
  rw [e1, ← List.sum_toFinset _ e2]
  congr 1
  ext x
  rw [List.mem_toFinset, List.mem_flatMap, mem_box]
  constructor
  · rintro ⟨rp, hrp, hx⟩
    obtain ⟨n, hn, rfl⟩ := List.mem_map.1 hx
    intro d
    have h1 := (hm n).1 hn d
    have h2 := off_bounds hD (Bndp.mem_allPatches.1 hrp) d
    have h3 := hL d
    unfold Cfg.off Cfg.gdims
    have h4 : ((c.D.idx3 rp.1 rp.2 d : ℤ) + 1) ≤ c.D.np d := by exact_mod_cast h2
    constructor
    · nlinarith [Int.natCast_nonneg (c.D.idx3 rp.1 rp.2 d)]
    · nlinarith
  · intro hx
    obtain ⟨r, p, n, h1, h2, h3⟩ := cover hD hL hx
    exact ⟨(r, p), Bndp.mem_allPatches.2 h1, List.mem_map.2 ⟨n, (hm n).2 h2, h3⟩⟩

theorem foldl_sum {α : Type} (v : α → ℝ) : ∀ (l : List α) (s : ℝ), l.foldl (fun s n => s + v n) s = s + (l.map v).sum
  | [], s => by simp
  | a :: l, s => by rw [List.foldl_cons, foldl_sum v l, List.map_cons, List.sum_cons, add_assoc]

theorem cellB2_eq {c : Cfg} {F : PF ℝ} {n : I3} {f : Fin 3 → ℝ} {g : Fin 3 → ℝ} (h0 : ∀ e : Fin 3, get c F (HX + e) n = some (f e))
    (h1 : ∀ e : Fin 3, get c F (HX + e) (up e n) = some (g e)) : cellB2 c F n = some (∑ e, (f e ^ 2 + g e ^ 2) / 2) := by
  have ux : (![n 0 + 1, n 1, n 2] : I3) = up 0 n := by funext d; fin_cases d <;> simp [up]
  have uy : (![n 0, n 1 + 1, n 2] : I3) = up 1 n := by funext d; fin_cases d <;> simp [up]
  have uz : (![n 0, n 1, n 2 + 1] : I3) = up 2 n := by funext d; fin_cases d <;> simp [up]
  have a0 : get c F (HX + 0) n = some (f 0) := h0 0
  have a1 : get c F (HX + 1) n = some (f 1) := h0 1
  have a2 : get c F (HX + 2) n = some (f 2) := h0 2
  have b0 : get c F (HX + 0) (up 0 n) = some (g 0) := h1 0
  have b1 : get c F (HX + 1) (up 1 n) = some (g 1) := h1 1
  have b2 : get c F (HX + 2) (up 2 n) = some (g 2) := h1 2
  unfold cellB2
  rw [ux, uy, uz, a0, a1, a2, b0, b1, b2]
  show some _ = some _
  rw [Fin.sum_univ_three]
  congr 1
  ring

theorem cellB2_spec (hF : Fit P w) (σ : Glob ℝ) (B : Fin 3 → I3 → ℝ) (hB : ∀ e, Periodic P.c.gdims (B e))
    (h : ∀ r p, P.c.D.Has r p → ∀ n, Near P.c n → ∀ e : Fin 3, σ r p (HX + e, n) = B e fun d => P.c.off r p d + n d) {r p : ℕ}
    (hp : P.c.D.Has r p) {n : I3} (hn : Interior P.c n) :
    cellB2 P.c (σ r p) n = some (b2 B fun d => P.c.off r p d + n d) := by
  refine cellB2_eq (f := fun e => B e fun d => P.c.off r p d + n d) (g := fun e => B e (up e fun d => P.c.off r p d + n d))
    (fun e => ?_) fun e => ?_
  · exact get_some hF (hB e) (R := Near P.c) (fun _ h => near_stored hF h) (fun k hk => h r p hp k hk e) (cl_near hF hn)
  · rw [get_some hF (hB e) (R := Near P.c) (fun _ h => near_stored hF h) (fun k hk => h r p hp k hk e) (cl_near_up hF hn e)]
    refine congrArg (fun z => some (B e z)) ?_
    funext i
    show P.c.off r p i + (n i + _) = P.c.off r p i + n i + _
    rw [add_assoc]

theorem sumOpt {α : Type} (f : α → Option ℝ) (v : α → ℝ) : ∀ (l : List α) (s : ℝ), (∀ n ∈ l, f n = some (v n)) →
    l.foldlM (fun s n => (f n).bind fun b => some (s + b)) s = some (s + (l.map v).sum)
  | [], s, _ => by simp
  | a :: l, s, h => by
    rw [List.foldlM_cons, h a (by simp)]
    show l.foldlM _ (s + v a) = _
    rw [sumOpt f v l _ fun n hn => h n (by simp [hn]), List.map_cons, List.sum_cons, add_assoc]

theorem sumOpt' {α : Type} (f : ℝ → α → Option ℝ) (v : α → ℝ) : ∀ (l : List α) (s : ℝ), (∀ n ∈ l, ∀ s, f s n = some (s + v n)) →
    l.foldlM f s = some (s + (l.map v).sum)
  | [], s, _ => by simp
  | a :: l, s, h => by
    rw [List.foldlM_cons, h a (by simp)]
    show l.foldlM _ (s + v a) = _
    rw [sumOpt' f v l _ fun n hn => h n (by simp [hn]), List.map_cons, List.sum_cons, add_assoc]

theorem sum_spec (hF : Fit P w) (σ : Glob ℝ) (B : Fin 3 → I3 → ℝ) (hB : ∀ e, Periodic P.c.gdims (B e))
    (h : ∀ r p, P.c.D.Has r p → ∀ n, Near P.c n → ∀ e : Fin 3, σ r p (HX + e, n) = B e fun d => P.c.off r p d + n d) :
    sum_b2 P σ = some (∑ x ∈ box P.c.gdims, b2 B x) := by
  have key := sumOpt' (fun s rp => (cells P.c 0 0).foldlM (fun s n => (cellB2 P.c (σ rp.1 rp.2) n).bind fun b => some (s + b)) s)
    (fun rp => ((cells P.c 0 0).map fun n => b2 B fun d => P.c.off rp.1 rp.2 d + n d).sum) (Bndp.allPatches P.c.D) 0
    fun rp hrp s => sumOpt (fun n => cellB2 P.c (σ rp.1 rp.2) n) (fun n => b2 B fun d => P.c.off rp.1 rp.2 d + n d) _ s
      fun n hn => cellB2_spec hF σ B hB h (Bndp.mem_allPatches.1 hrp) ((cells_interior hF.ghosts n).1 hn)
  have e := sum_box hF.valid hF.ghosts.ldims (cells P.c 0 0) (nodup_cells _ _ _) (cells_interior hF.ghosts) (b2 B)
  rw [e, zero_add] at key
  exact key

theorem scale_spec (hF : Fit P w) (σ : Glob ℝ) (f : ℝ) :
    ∃ τ, onPatches P.c (fun r p => scalePatch P f (σ r p)) = some τ ∧ ∀ r p, P.c.D.Has r p → ∀ n, Stored P.c n → ∀ e : Fin 3,
      τ r p (HX + e, n) = σ r p (HX + e, n) * f ∧ τ r p (EX + e, n) = σ r p (EX + e, n) := by
  obtain ⟨τ, h1, h2⟩ := patches_some (c := P.c) (l := n_ghosts P.c) (r := n_ghosts P.c) (fun _ _ F n => do
      let x ← get P.c F (HX + 0) n
      let F ← setTo P.c F (HX + 0) n (x * f)
      let y ← get P.c F (HX + 1) n
      let F ← setTo P.c F (HX + 1) n (y * f)
      let z ← get P.c F (HX + 2) n
      setTo P.c F (HX + 2) n (z * f))
    (fun _ _ _ m v => if m = 6 ∨ m = 7 ∨ m = 8 then v * f else v)
    (fun r' p _ F n hn => by
      have hs := (cells_all hF.ghosts n).1 hn
      have hcl := cl_self hF hs
      simp only [get, hcl, setTo, if_pos hs, Option.bind_eq_bind, Option.bind_some]
      congr 1
      funext mn
      obtain ⟨m, k⟩ := mn
      unfold cellMap
      simp only [Prod.mk.injEq]
      by_cases hk : k = n
      · subst hk
        simp only [and_true, if_true, HX]
        by_cases h6 : m = 6
        · subst h6; simp
        · by_cases h7 : m = 7
          · subst h7; simp
          · by_cases h8 : m = 8
            · subst h8; simp
            · simp [h6, h7, h8]
      · simp [hk]) σ
  refine ⟨τ, h1, fun r p hp n hn e => ?_⟩
  rw [h2 r p hp, h2 r p hp]
  simp only [if_pos ((cells_all hF.ghosts n).2 hn)]
  fin_cases e <;> simp [HX, EX]

/-! ## Everything together -/

theorem curl_periodic {gd : I3} {a : Fin 3 → I3 → ℝ} (ha : ∀ e, Periodic gd (a e)) (e : Fin 3) : Periodic gd (curl a e) := by
  intro x y h
  have hu : ∀ d d', gd d ∣ up d' x d - up d' y d := fun d d' => by
    unfold up
    have : x d + (if d = d' then 1 else 0) - (y d + if d = d' then 1 else 0) = x d - y d := by ring
    rw [this]; exact h d
  unfold curl
  rw [ha _ x y h, ha _ x y h, ha _ (up (e + 1) x) (up (e + 1) y) fun d => hu d _, ha _ (up (e + 2) x) (up (e + 2) y) fun d => hu d _]

theorem b2_nonneg (B : Fin 3 → I3 → ℝ) (x : I3) : 0 ≤ b2 B x := Finset.sum_nonneg fun e _ => by positivity

theorem sum_pos {gd : I3} {B : Fin 3 → I3 → ℝ} (h : ∃ x ∈ box gd, b2 B x ≠ 0) : 0 < ∑ x ∈ box gd, b2 B x := by
  obtain ⟨x, hx, h⟩ := h
  exact Finset.sum_pos' (fun x _ => b2_nonneg B x) ⟨x, hx, lt_of_le_of_ne (b2_nonneg B x) h.symm⟩

/-- the factor -/
def scaleOf (P : Par) (a : Fin 3 → I3 → ℝ) : ℝ :=
  √(((P.c.gdims 0 * P.c.gdims 1 * P.c.gdims 2 : ℤ) : ℝ) * P.db2 / ∑ x ∈ box P.c.gdims, b2 (curl a) x)

/-- from a vector potential that is the same for all ranks to the fields -/
theorem fields_spec (hF : Fit P w) {A : Glob ℝ} {a : Fin 3 → I3 → ℝ} (ha : ∀ e, Periodic P.c.gdims (a e))
    (hA : ∀ r p, P.c.D.Has r p → ∀ n, Stored P.c n → ∀ e : Fin 3, A r p (e, n) = a e fun d => P.c.off r p d + n d)
    (hz : ∃ x ∈ box P.c.gdims, b2 (curl a) x ≠ 0) :
    ∃ σ τ, inject_b_from_potential P A (fun _ _ _ => 0) = some σ ∧ set_mean_b2 P σ P.db2 = some τ ∧
      ∃ ρ, add_background_fields P τ = some ρ ∧ Holds P (fun e x => curl a e x * scaleOf P a) ρ := by
  obtain ⟨σ, h1, h2⟩ := curl_spec hF A (fun _ _ _ => 0) (fun _ => a) (fun _ => ha) hA
  have h3 := sum_spec hF σ (curl a) (curl_periodic ha) fun r p hp n hn e => (h2 r p hp n).1 hn e
  obtain ⟨τ, h4, h5⟩ := scale_spec hF σ (scaleOf P a)
  obtain ⟨ρ, h6, h7⟩ := background_spec hF τ
  refine ⟨σ, τ, h1, ?_, ρ, h6, fun r p hp e => ⟨fun n hn => ?_, fun n hn => ?_⟩⟩
  · unfold set_mean_b2
    rw [h3]
    simp only [Option.bind_eq_bind, Option.bind_some, if_neg (sum_pos hz).ne']
    exact h4
  · have hs := near_stored hF hn
    rw [(h7 r p hp n hs e).1, (h5 r p hp n hs e).1, (h2 r p hp n).1 hn e, add_comm]
  · rw [(h7 r p hp n hn e).2, (h5 r p hp n hn e).2, (h2 r p hp n).2 e, zero_add]

theorem b2_scale (B : Fin 3 → I3 → ℝ) (s : ℝ) (x : I3) : b2 (fun e x => B e x * s) x = b2 B x * s ^ 2 := by
  unfold b2
  rw [Finset.sum_mul]
  refine Finset.sum_congr rfl fun e _ => ?_
  ring

theorem gprod_pos {gd : I3} (h : ∃ x, x ∈ box gd) : (0 : ℝ) < ((gd 0 * gd 1 * gd 2 : ℤ) : ℝ) := by
  obtain ⟨x, hx⟩ := h
  rw [mem_box] at hx
  have p : ∀ d, 0 < gd d := fun d => by have := hx d; omega
  exact_mod_cast mul_pos (mul_pos (p 0) (p 1)) (p 2)

theorem mean_spec {a : Fin 3 → I3 → ℝ} (hz : ∃ x ∈ box P.c.gdims, b2 (curl a) x ≠ 0) (h : 0 ≤ P.db2) :
    meanB2 P.c.gdims (fun e x => curl a e x * scaleOf P a) = P.db2 := by
  have hN := gprod_pos ⟨hz.choose, hz.choose_spec.1⟩
  have hs := sum_pos hz
  unfold meanB2
  simp only [b2_scale]
  rw [← Finset.sum_mul]
  unfold scaleOf
  rw [Real.sq_sqrt (by positivity)]
  field_simp

theorem scale_periodic {gd : I3} {B : Fin 3 → I3 → ℝ} (h : ∀ e, Periodic gd (B e)) (s : ℝ) (e : Fin 3) :
    Periodic gd fun x => B e x * s := fun x y hx => by
  show B e x * s = B e y * s
  rw [h e x y hx]

/-! ## The waves repeat from box to box -/

theorem edge_shift (hF : Fit P w) (e : Fin 3) {x y : I3} (h : ∀ d, P.c.gdims d ∣ x d - y d) :
    ∃ m : Fin 3 → ℤ, edge P.geom e x = fun d => edge P.geom e y d + (m d : ℝ) * P.L d := by
  have hg : ∀ d, (P.c.gdims d : ℝ) ≠ 0 := fun d => by
    have h1 := hF.ghosts.ldims d
    have h2 := hF.np_pos d
    have : (P.c.gdims d) ≠ 0 := by
      unfold Cfg.gdims
      have h3 : (0 : ℤ) < P.c.D.np d := by exact_mod_cast h2
      exact (mul_pos h3 h1).ne'
    exact_mod_cast this
  choose m hm using h
  refine ⟨m, funext fun d => ?_⟩
  have hx : (x d : ℝ) = y d + P.c.gdims d * m d := by
    have := hm d
    have : x d = y d + P.c.gdims d * m d := by linarith
    rw [this]; push_cast; ring
  unfold edge posOf Par.geom
  dsimp only
  rw [hx]
  generalize (if d = e then (1 : ℝ) / 2 else 0) = o
  have := hg d
  field_simp
  ring

/-- a function of the position that repeats after the lengths of the box -/
def Repeats (P : Par) (f : R3 ℝ → ℝ) : Prop := ∀ (x : R3 ℝ) (m : Fin 3 → ℤ), f (fun d => x d + (m d : ℝ) * P.L d) = f x

theorem planeWave_repeats (hL : ∀ d, 0 < P.L d) (db pol ph : ℝ) (n : I3) (e : Fin 3) : Repeats P (planeWave db (k_vec P n) pol ph e) := by
  intro x m
  have ha : dot (k_vec P n) (fun d => x d + (m d : ℝ) * P.L d) + ph =
      (dot (k_vec P n) x + ph) + ((n 0 * m 0 + n 1 * m 1 + n 2 * m 2 : ℤ) : ℝ) * (2 * Real.pi) := by
    have h0 := (hL 0).ne'
    have h1 := (hL 1).ne'
    have h2 := (hL 2).ne'
    unfold dot k_vec dk_vec
    push_cast
    field_simp
    ring
  unfold planeWave
  simp only [ha, Real.sin_add_int_mul_two_pi, Real.cos_add_int_mul_two_pi]

theorem rng_shift (lo hi s : ℤ) : rng (lo + s) (hi + s) = (rng lo hi).map (· + s) := by
  unfold rng
  rw [show hi + s - (lo + s) = hi - lo by ring, List.map_map]
  refine List.map_congr_left fun n _ => ?_
  show lo + s + (n : ℤ) = lo + n + s
  ring

theorem axisRange_shift (lo hi s : ℤ) : axisRange (lo + s) (hi + s) = (axisRange lo hi).map (· + s) := by
  unfold axisRange
  by_cases h : lo < hi
  · rw [if_pos h, if_pos (by omega), rng_shift]
  · rw [if_neg h, if_neg (by omega)]; rfl

theorem vecRange_shift (lo hi s : I3) : vecRange (fun d => lo d + s d) (fun d => hi d + s d) =
    (vecRange lo hi).map fun n d => n d + s d := by
  unfold vecRange
  simp only [axisRange_shift, List.flatMap_map, List.map_flatMap, List.map_map]
  refine List.flatMap_congr fun i _ => List.flatMap_congr fun j _ => List.map_congr_left fun k _ => ?_
  funext d
  fin_cases d <;> rfl

theorem seed_shift (e g : ℤ) (cell s : I3) (ng : ℤ) {gd : I3} (h : ∀ d, gd d ∣ s d) :
    get_cell_seed P e g (fun d => cell d + s d) ng gd = get_cell_seed P e g cell ng gd := by
  have hm : ∀ d, (cell d + s d) % gd d = cell d % gd d := fun d => by
    obtain ⟨k, hk⟩ := h d
    rw [hk, Int.add_mul_emod_self_left]
  unfold get_cell_seed
  simp only [hm]

theorem sample_noise_shift (ph : ℝ) (e g ng : ℤ) {gd s : I3} (h : ∀ d, gd d ∣ s d) (x : R3 ℝ) :
    sample_noise P ph e g ng gd (fun d => x d + (s d : ℝ)) = sample_noise P ph e g ng gd x := by
  unfold sample_noise
  have hf : ∀ d, ⌊x d + (s d : ℝ)⌋ = ⌊x d⌋ + s d := fun d => Int.floor_add_intCast _ _
  have hr := vecRange_shift (fun d => ⌊x d⌋ - 1) (fun d => ⌊x d⌋ + 2) s
  have e1 : (fun d => ⌊x d + (s d : ℝ)⌋ - 1) = fun d => ⌊x d⌋ - 1 + s d := by funext d; rw [hf]; ring
  have e2 : (fun d => ⌊x d + (s d : ℝ)⌋ + 2) = fun d => ⌊x d⌋ + 2 + s d := by funext d; rw [hf]; ring
  rw [e1, e2, hr, List.foldl_map]
  congr 1
  funext t cell
  rw [seed_shift e g cell s ng h]
  congr 2
  funext d
  push_cast
  ring

theorem noiseWave_repeats (hL : ∀ d, 0 < P.L d) (ph : ℝ) (g : ℕ) (e : Fin 3) : Repeats P (noiseWave P ph g e) := by
  intro x m
  unfold noiseWave
  dsimp only
  congr 1
  have := sample_noise_shift (P := P) ph (e : ℤ) g (n_grids P.c.gdims) (gd := grid_dims P.c.gdims g)
    (s := fun d => grid_dims P.c.gdims g d * m d) (fun d => Dvd.intro _ rfl)
    (fun d => x d * ((grid_dims P.c.gdims g d : ℝ) / P.L d))
  rw [← this]
  congr 1
  funext d
  have := (hL d).ne'
  push_cast
  field_simp

theorem potential_periodic (hF : Fit P w) {ws : List (Fin 3 → R3 ℝ → ℝ)} (h : ∀ u ∈ ws, ∀ e, Repeats P (u e)) (e : Fin 3) :
    Periodic P.c.gdims (potential P ws e) := by
  intro x y hxy
  obtain ⟨m, hm⟩ := edge_shift hF e hxy
  unfold potential
  rw [hm]
  congr 1
  refine List.map_congr_left fun u hu => ?_
  exact h u hu e _ m

/-! ## No mode is left out -/

theorem axisRange_bounds {lo hi i : ℤ} (hlo : lo ≤ 0) (hhi : 0 ≤ hi) (h : i ∈ axisRange lo hi) : |i| ≤ max (-lo) hi := by
  have : lo ≤ i ∧ i ≤ hi := by
    unfold axisRange at h
    split_ifs at h with hl
    · unfold rng at h
      obtain ⟨n, hn, rfl⟩ := List.mem_map.1 h
      rw [List.mem_range] at hn
      omega
    · have := List.mem_singleton.1 h
      omega
  rw [abs_le]
  constructor
  · have := le_max_left (-lo) hi; omega
  · have := le_max_right (-lo) hi; omega

theorem mem_vecRange {lo hi n : I3} (h : n ∈ vecRange lo hi) : ∀ d, n d ∈ axisRange (lo d) (hi d) := by
  unfold vecRange at h
  simp only [List.mem_flatMap, List.mem_map] at h
  obtain ⟨i, hi, j, hj, k, hk, rfl⟩ := h
  intro d
  fin_cases d
  · exact hi
  · exact hj
  · exact hk

theorem i3_min_nonpos {gd : I3} (h : ∀ d, 0 < gd d) (d : Fin 3) : i3_min gd d ≤ 0 := by
  have hm : ∀ d, (1 - gd d).tdiv 2 ≤ 0 := fun d => by
    have := h d
    have : ((1 - gd d).tdiv 2) = -((gd d - 1).tdiv 2) := by rw [← Int.neg_tdiv]; congr 1; ring
    rw [this, Int.tdiv_eq_ediv_of_nonneg (by omega)]
    omega
  unfold i3_min
  dsimp only
  split_ifs
  · fin_cases d
    · exact le_refl _
    · exact hm 1
    · exact hm 2
  · fin_cases d
    · exact hm 0
    · exact le_refl _
    · exact hm 2
  · fin_cases d
    · exact hm 0
    · exact hm 1
    · exact le_refl _
  · exact hm d

theorem dk_pos (hL : ∀ d, 0 < P.L d) : 0 < dk P := by
  have : ∀ d, 0 < dk_vec P d := fun d => by have := hL d; have := Real.pi_pos; unfold dk_vec; positivity
  exact lt_min (lt_min (this 0) (this 1)) (this 2)

theorem gdims_pos (hF : Fit P w) (d : Fin 3) : 0 < P.c.gdims d := by
  have h1 := hF.ghosts.ldims d
  have h2 : (0 : ℤ) < P.c.D.np d := by exact_mod_cast hF.np_pos d
  exact mul_pos h2 h1

theorem shell_lt (hF : Fit P w) {n : I3} (h : n ∈ modes P.c.gdims) : shell P n < nk P := by
  have hn := mem_vecRange (List.mem_filter.1 h).1
  have hk := dk_pos hF.L_pos
  have hv : ∀ d, 0 < dk_vec P d := fun d => by have := hF.L_pos d; have := Real.pi_pos; unfold dk_vec; positivity
  have hb : ∀ d, |n d| ≤ max (-i3_min P.c.gdims d) (i3_max P.c.gdims d) := fun d =>
    axisRange_bounds (i3_min_nonpos (gdims_pos hF) d) (by
      unfold i3_max
      rw [Int.tdiv_eq_ediv_of_nonneg (gdims_pos hF d).le]
      have := gdims_pos hF d
      omega) (hn d)
  have hd : ∀ d, k_vec P n d * k_vec P n d ≤
      (((max (-i3_min P.c.gdims d) (i3_max P.c.gdims d) : ℤ) : ℝ) * dk_vec P d) *
      (((max (-i3_min P.c.gdims d) (i3_max P.c.gdims d) : ℤ) : ℝ) * dk_vec P d) := fun d => by
    have h1 : |(n d : ℝ)| ≤ ((max (-i3_min P.c.gdims d) (i3_max P.c.gdims d) : ℤ) : ℝ) := by exact_mod_cast hb d
    generalize ((max (-i3_min P.c.gdims d) (i3_max P.c.gdims d) : ℤ) : ℝ) = M at h1 ⊢
    have h2 : (n d : ℝ) * n d ≤ M * M := by
      rw [← abs_mul_abs_self]
      exact mul_self_le_mul_self (abs_nonneg _) h1
    unfold k_vec
    have := mul_le_mul_of_nonneg_right h2 (mul_self_nonneg (dk_vec P d))
    linarith
  unfold shell nk
  dsimp only
  have hnn : ∀ v : R3 ℝ, 0 ≤ √(dot v v) / dk P := fun v => div_nonneg (Real.sqrt_nonneg _) hk.le
  rw [Nat.floor_add_one (hnn _), Nat.lt_add_one_iff]
  refine Nat.floor_le_floor (div_le_div_of_nonneg_right (Real.sqrt_le_sqrt ?_) hk.le)
  unfold dot
  have h0 := hd 0
  have h1 := hd 1
  have h2 := hd 2
  linarith

/-! ## The two methods -/

theorem dense_repeats (hL : ∀ d, 0 < P.L d) : ∀ u ∈ denseWaves P, ∀ e, Repeats P (u e) := by
  intro u hu e
  obtain ⟨nj, -, rfl⟩ := List.mem_map.1 hu
  exact planeWave_repeats hL _ _ _ _ _

theorem noise_repeats (hL : ∀ d, 0 < P.L d) (ph : ℝ) : ∀ u ∈ noiseWaves P ph, ∀ e, Repeats P (u e) := by
  intro u hu e
  obtain ⟨g, -, rfl⟩ := List.mem_map.1 hu
  exact noiseWave_repeats hL _ _ _

/-- the turbulent field -/
def turbB (P : Par) (ws : List (Fin 3 → R3 ℝ → ℝ)) (e : Fin 3) (x : I3) : ℝ := curl (potential P ws) e x * scaleOf P (potential P ws)

theorem dense_spec (hF : Fit P w) (hd : 0 < P.db2) (hz : NotZero P (denseWaves P)) :
    ∃ ρ, initializeFields P .dense = some ρ ∧ Holds P (turbB P (denseWaves P)) ρ := by
  obtain ⟨A, h1, h2⟩ := waves_spec hF (fun _ (nj : I3 × ℕ) => denseWave P nj.1 nj.2) (modes P.c.gdims).zipIdx fun _ _ _ => 0
  obtain ⟨σ, τ, h3, h4, ρ, h5, h6⟩ := fields_spec hF (A := A) (a := potential P (denseWaves P))
    (potential_periodic hF (dense_repeats hF.L_pos)) (fun r p hp n hn e => by
      rw [h2 r p hp n hn e, zero_add]
      unfold potential denseWaves
      rw [List.map_map]
      rfl) hz
  refine ⟨ρ, ?_, h6⟩
  have ht : inject_turbulence_dense P (fun _ _ _ => 0) = some τ := by
    unfold inject_turbulence_dense
    rw [if_pos fun n hn => shell_lt hF hn, h1]
    show (inject_b_from_potential P A fun _ _ _ => 0).bind _ = _
    rw [h3]
    exact h4
  unfold initializeFields
  rw [if_pos hd]
  show (inject_turbulence_dense P fun _ _ _ => 0).bind _ = _
  rw [ht]
  exact h5

theorem noise_spec (hF : Fit P w) (hd : 0 < P.db2) (ph : ℝ) (hz : NotZero P (noiseWaves P ph)) :
    ∃ ρ, initializeFields P (.noise fun _ => ph) = some ρ ∧ Holds P (turbB P (noiseWaves P ph)) ρ := by
  obtain ⟨A, h1, h2⟩ := waves_spec hF (fun _ (g : ℕ) => noiseWave P ph g) (List.range (n_grids P.c.gdims).toNat) fun _ _ _ => 0
  obtain ⟨σ, τ, h3, h4, ρ, h5, h6⟩ := fields_spec hF (A := A) (a := potential P (noiseWaves P ph))
    (potential_periodic hF (noise_repeats hF.L_pos ph)) (fun r p hp n hn e => by
      rw [h2 r p hp n hn e, zero_add]
      unfold potential noiseWaves
      rw [List.map_map]
      rfl) hz
  refine ⟨ρ, ?_, h6⟩
  have ht : inject_turbulence_noise P (fun _ => ph) (fun _ _ _ => 0) = some τ := by
    unfold inject_turbulence_noise
    rw [h1]
    show (inject_b_from_potential P A fun _ _ _ => 0).bind _ = _
    rw [h3]
    exact h4
  unfold initializeFields
  rw [if_pos hd]
  show (inject_turbulence_noise P (fun _ => ph) fun _ _ _ => 0).bind _ = _
  rw [ht]
  exact h5

theorem turbB_periodic (hF : Fit P w) {ws : List (Fin 3 → R3 ℝ → ℝ)} (h : ∀ u ∈ ws, ∀ e, Repeats P (u e)) (e : Fin 3) :
    Periodic P.c.gdims (turbB P ws e) := scale_periodic (curl_periodic (potential_periodic hF h)) _ e

/-! ## Divergence -/

theorem up_up (d d' : Fin 3) (x : I3) : up d (up d' x) = up d' (up d x) := by
  funext i; simp only [up]; ring

theorem div_curl (a : Fin 3 → I3 → ℝ) (x : I3) : ∑ d, (curl a d (up d x) - curl a d x) = 0 := by
  rw [Fin.sum_univ_three]
  unfold curl
  have e1 : (0 : Fin 3) + 1 = 1 := rfl
  have e2 : (0 : Fin 3) + 2 = 2 := rfl
  have e3 : (1 : Fin 3) + 1 = 2 := rfl
  have e4 : (1 : Fin 3) + 2 = 0 := rfl
  have e5 : (2 : Fin 3) + 1 = 0 := rfl
  have e6 : (2 : Fin 3) + 2 = 1 := rfl
  simp only [e1, e2, e3, e4, e5, e6, up_up 1 0, up_up 2 0, up_up 2 1]
  ring

theorem periodic_up {gd : I3} {f : I3 → ℝ} (h : Periodic gd f) {d : Fin 3} (hd : gd d = 1) (x : I3) : f (up d x) = f x := by
  refine h _ _ fun i => ?_
  unfold up
  by_cases hi : i = d
  · subst hi; rw [hd]; exact one_dvd _
  · rw [if_neg hi, add_zero, sub_self]; exact dvd_zero _

theorem near_of_interior {c : Cfg} (hg : Ghosts c w) {n : I3} (hn : Interior c n) : Near c n := by
  intro d
  have := hn d
  split_ifs with h
  · have := inv_ldims hg h
    omega
  · omega

theorem near_up {c : Cfg} {n : I3} (hn : Interior c n) (hg : Ghosts c w) {d : Fin 3} (h : c.gdims d ≠ 1) : Near c (up d n) := by
  intro i
  have := hn i
  unfold up
  by_cases hi : i = d
  · subst hi
    rw [if_neg h, if_pos rfl]
    omega
  · rw [if_neg hi, add_zero]
    split_ifs with h'
    · have := inv_ldims hg h'
      omega
    · omega

theorem divB_eq (hF : Fit P w) {B : Fin 3 → I3 → ℝ} {σ : Glob ℝ} (h : Holds P B σ) {r p : ℕ} (hp : P.c.D.Has r p) {n : I3} (hn : Interior P.c n) :
    divB P (σ r p) n = ∑ d, if P.c.gdims d = 1 then 0 else
      (B d (up d fun i => P.c.off r p i + n i) - B d fun i => P.c.off r p i + n i) / P.geom.dx d := by
  unfold divB
  refine Finset.sum_congr rfl fun d _ => ?_
  split_ifs with hd
  · rfl
  · rw [(h r p hp d).1 _ (near_of_interior hF.ghosts hn), (h r p hp d).1 _ (near_up hn hF.ghosts hd)]
    have : (fun i => P.c.off r p i + up d n i) = up d fun i => P.c.off r p i + n i := by
      funext i; simp only [up, add_assoc]
    rw [this]
    ring

theorem div_zero (hF : Fit P w) {ws : List (Fin 3 → R3 ℝ → ℝ)} (hp : ∀ u ∈ ws, ∀ e, Repeats P (u e)) {δ : ℝ}
    (hδ : ∀ d, P.c.gdims d ≠ 1 → P.geom.dx d = δ) (x : I3) :
    (∑ d, if P.c.gdims d = 1 then 0 else (turbB P ws d (up d x) - turbB P ws d x) / P.geom.dx d) = 0 := by
  have : ∀ d, (if P.c.gdims d = 1 then 0 else (turbB P ws d (up d x) - turbB P ws d x) / P.geom.dx d) =
      (curl (potential P ws) d (up d x) - curl (potential P ws) d x) * (scaleOf P (potential P ws) / δ) := by
    intro d
    split_ifs with hd
    · rw [periodic_up (curl_periodic (potential_periodic hF hp) d) hd, sub_self, zero_mul]
    · rw [hδ d hd]
      unfold turbB
      ring
  simp only [this]
  rw [← Finset.sum_mul, div_curl, zero_mul]

/-! ## Other decompositions -/

theorem dense_other {c' : Cfg} (h : c'.gdims = P.c.gdims) : denseWaves { P with c := c' } = denseWaves P := by
  unfold denseWaves denseWave shell_db2 n_cells
  simp only [h]
  rfl

theorem noise_other {c' : Cfg} (h : c'.gdims = P.c.gdims) (ph : ℝ) : noiseWaves { P with c := c' } ph = noiseWaves P ph := by
  unfold noiseWaves noiseWave
  simp only [h]
  rfl

theorem potential_other {c' : Cfg} (h : c'.gdims = P.c.gdims) (ws : List (Fin 3 → R3 ℝ → ℝ)) :
    potential { P with c := c' } ws = potential P ws := by
  unfold potential Par.geom
  simp only [h]

theorem turbB_other {c' : Cfg} (h : c'.gdims = P.c.gdims) (ws : List (Fin 3 → R3 ℝ → ℝ)) :
    turbB { P with c := c' } ws = turbB P ws := by
  unfold turbB scaleOf
  rw [potential_other h]
  simp only [h]

theorem notZero_other {c' : Cfg} (h : c'.gdims = P.c.gdims) {ws : List (Fin 3 → R3 ℝ → ℝ)} (hz : NotZero P ws) :
    NotZero { P with c := c' } ws := by
  unfold NotZero
  rw [potential_other h]
  simp only [h]
  exact hz

/-! ## Phases that differ by half a turn -/

theorem gabor_neg (ph : ℝ) (dir x : R3 ℝ) : gabor (ph + Real.pi) dir x = -gabor ph dir x := by
  unfold gabor
  rw [← add_assoc, Real.cos_add_pi]
  ring

theorem foldl_add_sum {α : Type} (f : α → ℝ) (l : List α) : l.foldl (fun s a => s + f a) 0 = (l.map f).sum := by
  rw [foldl_sum, zero_add]

theorem sum_neg {α : Type} (f : α → ℝ) : ∀ l : List α, (l.map fun a => -f a).sum = -(l.map f).sum
  | [] => by simp
  | a :: l => by simp only [List.map_cons, List.sum_cons, sum_neg f l]; ring

theorem cell_neg (ph : ℝ) (u : ℕ → ℝ) (x : R3 ℝ) : sample_noise_cell (ph + Real.pi) u x = -sample_noise_cell ph u x := by
  unfold sample_noise_cell
  simp only [gabor_neg, foldl_add_sum]
  exact sum_neg _ _

theorem noise_neg (ph : ℝ) (e g ng : ℤ) (gd : I3) (x : R3 ℝ) :
    sample_noise P (ph + Real.pi) e g ng gd x = -sample_noise P ph e g ng gd x := by
  unfold sample_noise
  simp only [cell_neg, foldl_add_sum]
  exact sum_neg _ _

theorem noiseWave_neg (ph : ℝ) (g : ℕ) (e : Fin 3) (x : R3 ℝ) : noiseWave P (ph + Real.pi) g e x = -noiseWave P ph g e x := by
  unfold noiseWave
  simp only [noise_neg]
  ring

theorem potential_neg (ph : ℝ) (e : Fin 3) (x : I3) :
    potential P (noiseWaves P (ph + Real.pi)) e x = -potential P (noiseWaves P ph) e x := by
  unfold potential noiseWaves
  rw [List.map_map, List.map_map]
  simp only [Function.comp_def, noiseWave_neg]
  exact sum_neg _ _

theorem curl_neg (ph : ℝ) (e : Fin 3) (x : I3) :
    curl (potential P (noiseWaves P (ph + Real.pi))) e x = -curl (potential P (noiseWaves P ph)) e x := by
  unfold curl
  simp only [potential_neg]
  ring

theorem b2_neg (ph : ℝ) (x : I3) : b2 (curl (potential P (noiseWaves P (ph + Real.pi)))) x = b2 (curl (potential P (noiseWaves P ph))) x := by
  unfold b2
  simp only [curl_neg, neg_sq]

theorem turbB_neg (ph : ℝ) (e : Fin 3) (x : I3) : turbB P (noiseWaves P (ph + Real.pi)) e x = -turbB P (noiseWaves P ph) e x := by
  unfold turbB scaleOf
  simp only [b2_neg, curl_neg]
  ring

theorem notZero_neg {ph : ℝ} (h : NotZero P (noiseWaves P ph)) : NotZero P (noiseWaves P (ph + Real.pi)) := by
  obtain ⟨x, hx, h⟩ := h
  exact ⟨x, hx, by rwa [b2_neg]⟩

theorem exists_turbB_ne {ws : List (Fin 3 → R3 ℝ → ℝ)} (hd : 0 < P.db2) (h : NotZero P ws) : ∃ x e, turbB P ws e x ≠ 0 := by
  by_contra hn
  push Not at hn
  have := mean_spec (P := P) (a := potential P ws) h hd.le
  have hz : meanB2 P.c.gdims (fun e x => curl (potential P ws) e x * scaleOf P (potential P ws)) = 0 := by
    unfold meanB2 b2
    have hn' : ∀ e x, curl (potential P ws) e x * scaleOf P (potential P ws) = 0 := fun e x => hn x e
    simp [hn']
  rw [hz] at this
  exact hd.ne this

/-- every cell is, up to whole boxes, a cell of a patch -/
theorem reduce (hF : Fit P w) (x : I3) : ∃ r p n, P.c.D.Has r p ∧ Interior P.c n ∧ ∀ d, P.c.gdims d ∣ x d - (P.c.off r p d + n d) := by
  have hx : ∀ d, 0 ≤ x d % P.c.gdims d ∧ x d % P.c.gdims d < P.c.gdims d := fun d =>
    ⟨Int.emod_nonneg _ (gdims_pos hF d).ne', Int.emod_lt_of_pos _ (gdims_pos hF d)⟩
  obtain ⟨r, p, n, h1, h2, h3⟩ := cover hF.valid hF.ghosts.ldims (x := fun d => x d % P.c.gdims d) hx
  refine ⟨r, p, n, h1, h2, fun d => ?_⟩
  rw [congrFun h3 d]
  exact Int.dvd_self_sub_emod

/-! ## Divergence with two spacings -/

/-- mixed second difference in y and z -/
def mixed (f : I3 → ℝ) (x : I3) : ℝ := f (up 1 (up 2 x)) - f (up 1 x) - f (up 2 x) + f x

theorem div_two (hF : Fit P w) {ws : List (Fin 3 → R3 ℝ → ℝ)} (hp : ∀ u ∈ ws, ∀ e, Repeats P (u e)) (h0 : P.c.gdims 0 = 1)
    (h1 : P.c.gdims 1 ≠ 1) (h2 : P.c.gdims 2 ≠ 1) (x : I3) :
    (∑ d, if P.c.gdims d = 1 then 0 else (turbB P ws d (up d x) - turbB P ws d x) / P.geom.dx d) =
      mixed (potential P ws 0) x * scaleOf P (potential P ws) * (1 / P.geom.dx 1 - 1 / P.geom.dx 2) := by
  rw [Fin.sum_univ_three, if_pos h0, if_neg h1, if_neg h2]
  have hq : ∀ e x, potential P ws e (up 0 x) = potential P ws e x := fun e x => periodic_up (potential_periodic hF hp e) h0 x
  unfold turbB curl mixed
  have e3 : (1 : Fin 3) + 1 = 2 := rfl
  have e4 : (1 : Fin 3) + 2 = 0 := rfl
  have e5 : (2 : Fin 3) + 1 = 0 := rfl
  have e6 : (2 : Fin 3) + 2 = 1 := rfl
  simp only [e3, e4, e5, e6, hq, up_up 2 1]
  ring

theorem mixed_ne {a : Fin 3 → I3 → ℝ} {gd : I3} (ha : ∀ e, Periodic gd (a e)) (h0 : gd 0 = 1) {x : I3} (hx : x ∈ box gd)
    (hx' : up 1 x ∈ box gd) (h : mixed (a 0) x ≠ 0) : ∃ x ∈ box gd, b2 (curl a) x ≠ 0 := by
  by_contra hn
  push Not at hn
  have hq : ∀ e x, a e (up 0 x) = a e x := fun e x => periodic_up (ha e) h0 x
  have hz : ∀ x ∈ box gd, curl a 1 x = 0 := fun x hx => by
    have := hn x hx
    unfold b2 at this
    have h2 := (Finset.sum_eq_zero_iff_of_nonneg (fun e _ => by positivity)).1 this 1 (Finset.mem_univ _)
    nlinarith [sq_nonneg (curl a 1 x), sq_nonneg (curl a 1 (up 1 x))]
  have e3 : (1 : Fin 3) + 1 = 2 := rfl
  have e4 : (1 : Fin 3) + 2 = 0 := rfl
  have z1 := hz x hx
  have z2 := hz _ hx'
  unfold curl at z1 z2
  simp only [e3, e4, hq, up_up 2 1] at z1 z2
  apply h
  unfold mixed
  linarith

/-! ## The amplitudes are positive -/

theorem cell_db2_pos (hL : ∀ d, 0 < P.L d) (hc : 0 ≤ P.corr) {n : I3} (h : n ∈ modes P.c.gdims) :
    0 < 1 / (n_cells P (shell P n) : ℝ) * shell_db2 P (shell P n) := by
  have h1 : 0 < n_cells P (shell P n) := by
    unfold n_cells
    rw [List.countP_pos_iff]
    exact ⟨n, h, by simp⟩
  have hk := dk_pos hL
  unfold shell_db2
  rw [if_pos h1]
  have h2 : (0 : ℝ) < n_cells P (shell P n) := by exact_mod_cast h1
  have h3 : 0 < shell_power P (dk P * (shell P n : ℝ) + 1 / 2 * dk P) := by
    unfold shell_power
    have : 0 ≤ ((dk P * (shell P n : ℝ) + 1 / 2 * dk P) * P.corr) ^ ((5 : ℝ) / 3) := Real.rpow_nonneg (by positivity) _
    positivity
  positivity

/-- x component of the first direction of a wave in the y-z plane -/
theorem cross_hat {k : R3 ℝ} (h0 : k 0 = 0) (h1 : 0 < k 1) : 0 < cross (hats k).1 k 0 := by
  have hxy : √((0 : ℝ) ^ 2 + k 1 ^ 2) = k 1 := by simp [Real.sqrt_sq h1.le]
  have hkk : 0 < √(dot k k) := Real.sqrt_pos.2 (by unfold dot; nlinarith [mul_self_nonneg (k 0), mul_self_nonneg (k 2)])
  unfold cross hats phi
  simp only [h0, hxy, if_neg h1.ne', zero_div, div_self h1.ne', Matrix.cons_val_zero, Matrix.cons_val_one, Matrix.cons_val, mul_one]
  have : k 2 / √(dot k k) * k 2 - -(k 1 / √(dot k k)) * k 1 = (k 2 * k 2 + k 1 * k 1) / √(dot k k) := by ring
  rw [this]
  refine div_pos ?_ hkk
  nlinarith [mul_self_nonneg (k 2)]

theorem step_ne {a : Fin 3 → I3 → ℝ} {gd : I3} (ha : ∀ e, Periodic gd (a e)) (h0 : gd 0 = 1) {x : I3} (hx : x ∈ box gd)
    (h : a 0 (up 1 x) ≠ a 0 x) : ∃ x ∈ box gd, b2 (curl a) x ≠ 0 := by
  refine ⟨x, hx, fun hn => h ?_⟩
  have hq : ∀ e x, a e (up 0 x) = a e x := fun e x => periodic_up (ha e) h0 x
  unfold b2 at hn
  have h2 := (Finset.sum_eq_zero_iff_of_nonneg (fun e _ => by positivity)).1 hn 2 (Finset.mem_univ _)
  have z : curl a 2 x = 0 := by nlinarith [sq_nonneg (curl a 2 x), sq_nonneg (curl a 2 (up 2 x))]
  have e5 : (2 : Fin 3) + 1 = 0 := rfl
  have e6 : (2 : Fin 3) + 2 = 1 := rfl
  unfold curl at z
  simp only [e5, e6, hq] at z
  linarith

theorem axisRange_mem (lo hi : ℤ) : lo ∈ axisRange lo hi := by
  unfold axisRange
  split_ifs with h
  · unfold rng
    rw [List.mem_map]
    exact ⟨0, by rw [List.mem_range]; omega, by simp⟩
  · simp

theorem vecRange_ne_nil (lo hi : I3) : vecRange lo hi ≠ [] := by
  have : (![lo 0, lo 1, lo 2] : I3) ∈ vecRange lo hi := by
    unfold vecRange
    simp only [List.mem_flatMap, List.mem_map]
    exact ⟨_, axisRange_mem _ _, _, axisRange_mem _ _, _, axisRange_mem _ _, rfl⟩
  exact List.ne_nil_of_mem this

/-- noise whose impulses sit in the corners of the cells and have waves along y -/
theorem cell_along_y {u : ℕ → ℝ} (hu : ∀ i, u i = if i % 6 = 3 then 1 / 2 else if i % 6 = 4 then 1 / 4 else 0) (y : R3 ℝ) :
    sample_noise_cell 0 u y = 10 * Real.exp (-Real.pi * dot y y) * Real.cos (2 * Real.pi * y 1) := by
  have hdir : ∀ i, wave_dir u (6 * i + 3) = ![0, 1, 0] := fun i => by
    have h3 : u (6 * i + 3) = 1 / 2 := by rw [hu, if_pos (by omega)]
    have h4 : u (6 * i + 3 + 1) = 1 / 4 := by rw [hu, if_neg (by omega), if_pos (by omega)]
    unfold wave_dir
    simp only [h3, h4]
    have a1 : Real.arccos (-1 + 2 * (1 / 2)) = Real.pi / 2 := by norm_num
    have a2 : 2 * Real.pi * (1 / 4) = Real.pi / 2 := by ring
    rw [a1, a2]
    simp
  have hpos : ∀ i, (fun d => y d - (![u (6 * i), u (6 * i + 1), u (6 * i + 2)] : R3 ℝ) d) = y := fun i => by
    have h0 : u (6 * i) = 0 := by rw [hu, if_neg (by omega), if_neg (by omega)]
    have h1 : u (6 * i + 1) = 0 := by rw [hu, if_neg (by omega), if_neg (by omega)]
    have h2 : u (6 * i + 2) = 0 := by rw [hu, if_neg (by omega), if_neg (by omega)]
    funext d
    rw [h0, h1, h2]
    fin_cases d <;> simp
  unfold sample_noise_cell
  rw [foldl_add_sum]
  simp only [hdir, hpos, List.map_const', List.sum_replicate, List.length_range]
  unfold gabor dot
  simp
  ring

theorem noise_along_y {u : ℕ → ℝ} (hP : ∀ s, P.draw s = u)
    (hu : ∀ i, u i = if i % 6 = 3 then 1 / 2 else if i % 6 = 4 then 1 / 4 else 0) (e g ng : ℤ) (gd : I3) (x : R3 ℝ) :
    ∃ S, 0 < S ∧ sample_noise P 0 e g ng gd x = S * Real.cos (2 * Real.pi * x 1) := by
  refine ⟨((vecRange (fun d => ⌊x d⌋ - 1) (fun d => ⌊x d⌋ + 2)).map fun cell : I3 =>
    10 * Real.exp (-Real.pi * dot (fun d => x d - (cell d : ℝ)) fun d => x d - (cell d : ℝ))).sum, ?_, ?_⟩
  · refine List.sum_pos _ (fun z hz => ?_) (by simpa using vecRange_ne_nil _ _)
    obtain ⟨c, -, rfl⟩ := List.mem_map.1 hz
    positivity
  · unfold sample_noise
    simp only [hP, cell_along_y hu, foldl_add_sum]
    rw [← List.sum_map_mul_right]
    congr 1
    refine List.map_congr_left fun c _ => ?_
    congr 1
    rw [show 2 * Real.pi * (x 1 - (c 1 : ℝ)) = 2 * Real.pi * x 1 - (c 1 : ℤ) * (2 * Real.pi) by ring, Real.cos_sub_int_mul_two_pi]

/-! ## Boxes without modes -/

theorem no_modes {gd : I3} (h : ∀ d, gd d = 1 ∨ gd d = 2) : modes gd = [] := by
  have hm : ∀ d, (1 - gd d).tdiv 2 = 0 := fun d => by rcases h d with e | e <;> rw [e] <;> rfl
  have h2 : ∀ d, ¬ gd d > 2 := fun d => by rcases h d with e | e <;> rw [e] <;> decide
  have hmin : i3_min gd = fun _ => 0 := by
    unfold i3_min
    dsimp only
    rw [if_neg (h2 0), if_neg (h2 1), if_neg (h2 2)]
    funext d
    exact hm d
  have ha : ∀ d, axisRange (i3_min gd d) (i3_max gd d) = [0] := fun d => by
    rw [hmin]
    unfold i3_max
    rcases h d with e | e <;> rw [e] <;> rfl
  unfold modes vecRange
  simp only [ha]
  rfl

theorem no_field (hF : Fit P w) (hd : 0 < P.db2) (h : ∀ d, P.c.gdims d = 1 ∨ P.c.gdims d = 2) : initializeFields P .dense = none := by
  have hm := no_modes h
  obtain ⟨σ, h1, h2⟩ := curl_spec hF (fun _ _ _ => 0) (fun _ _ _ => 0) (fun _ _ _ => 0) (fun _ _ _ _ _ => rfl) fun _ _ _ _ _ _ => rfl
  have hc : ∀ e x, curl (fun _ _ => (0 : ℝ)) e x = 0 := fun e x => by unfold curl; ring
  have h3 := sum_spec hF σ (fun _ _ => 0) (fun _ _ _ _ => rfl) fun r p hp n hn e => by
    rw [(h2 r p hp n).1 hn e]; exact hc _ _
  have h4 : ∑ x ∈ box P.c.gdims, b2 (fun _ _ => (0 : ℝ)) x = 0 := Finset.sum_eq_zero fun x _ => by unfold b2; simp
  rw [h4] at h3
  have ht : inject_turbulence_dense P (fun _ _ _ => 0) = none := by
    unfold inject_turbulence_dense
    rw [hm, if_pos (by simp)]
    show (inject_b_from_potential P (fun _ _ _ => 0) fun _ _ _ => 0).bind _ = _
    rw [h1]
    show set_mean_b2 P σ P.db2 = none
    unfold set_mean_b2
    rw [h3]
    simp only [Option.bind_eq_bind, Option.bind_some, if_true]
  unfold initializeFields
  rw [if_pos hd]
  show (inject_turbulence_dense P fun _ _ _ => 0).bind _ = _
  rw [ht]
  rfl

end

end Psc.Turb
