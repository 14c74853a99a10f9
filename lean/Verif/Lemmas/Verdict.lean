import Verif.Spec.Verdict
import Verif.Lemmas.PicStep
import Mathlib.Algebra.Order.Group.Abs

/-!
# Lemmas for C85
-/

namespace Psc.Verdict

variable {K : Type} [Field K] [LinearOrder K] [IsStrictOrderedRing K]

theorem mem_patchCells {W : World} {r p : ℕ} {n : I3} :
    (p, n) ∈ patchCells W r ↔ p < W.n_patches r ∧ ∀ d, 0 ≤ n d ∧ n d < W.ldims d := by
  simp [patchCells, Pic.mem_cells]

theorem fold_max {mx : F K → F K → F K} (hm : FMax mx) : ∀ (l : List K) (m : K),
    ∃ M, (l.map some).foldl (fun m x => mx m (fabs x)) (some m) = some M ∧ m ≤ M ∧ (∀ x ∈ l, |x| ≤ M) ∧ (M = m ∨ ∃ x ∈ l, |x| = M)
  | [], m => ⟨m, rfl, le_rfl, fun _ h => (by cases h), .inl rfl⟩
  | x :: l, m => by
    obtain ⟨M, h1, h2, h3, h4⟩ := fold_max hm l (max m |x|)
    refine ⟨M, ?_, (le_max_left _ _).trans h2, fun y hy => ?_, ?_⟩
    · rw [← h1]
      show List.foldl _ (mx (some m) (some |x|)) _ = _
      rw [hm.num]
    · rcases List.mem_cons.1 hy with rfl | hy
      · exact (le_max_right _ _).trans h2
      · exact h3 y hy
    · rcases h4 with h4 | ⟨y, hy, h4⟩
      · rcases max_choice m |x| with h | h
        · exact .inl (h4.trans h)
        · exact .inr ⟨x, by simp, by rw [h4, h]⟩
      · exact .inr ⟨y, by simp [hy], h4⟩

theorem fold_max' {mx : F K → F K → F K} (hm : FMax mx) : ∀ (l : List K) (m : K),
    ∃ M, (l.map some).foldl mx (some m) = some M ∧ m ≤ M ∧ (∀ x ∈ l, x ≤ M) ∧ (M = m ∨ ∃ x ∈ l, x = M)
  | [], m => ⟨m, rfl, le_rfl, fun _ h => (by cases h), .inl rfl⟩
  | x :: l, m => by
    obtain ⟨M, h1, h2, h3, h4⟩ := fold_max' hm l (max m x)
    refine ⟨M, ?_, (le_max_left _ _).trans h2, fun y hy => ?_, ?_⟩
    · rw [← h1]
      show List.foldl _ (mx (some m) (some x)) _ = _
      rw [hm.num]
    · rcases List.mem_cons.1 hy with rfl | hy
      · exact (le_max_right _ _).trans h2
      · exact h3 y hy
    · rcases h4 with h4 | ⟨y, hy, h4⟩
      · rcases max_choice m x with h | h
        · exact .inl (h4.trans h)
        · exact .inr ⟨x, by simp, by rw [h4, h]⟩
      · exact .inr ⟨y, by simp [hy], h4⟩

theorem max_err_spec {mx : F K → F K → F K} (hm : FMax mx) (W : World) (f : ℕ → ℕ → I3 → K) (hW : 0 < W.n_ranks) :
    ∃ M, max_err mx W (fun r p n => some (f r p n)) = some M ∧ 0 ≤ M ∧ (∀ r p n, W.Cell r p n → |f r p n| ≤ M) ∧
      (M = 0 ∨ ∃ r p n, W.Cell r p n ∧ |f r p n| = M) := by
  have hl : ∀ r, ∃ M, norm_linf mx ((patchCells W r).map fun pn => some (f r pn.1 pn.2)) = some M ∧ 0 ≤ M ∧
      (∀ p n, (p, n) ∈ patchCells W r → |f r p n| ≤ M) ∧ (M = 0 ∨ ∃ p n, (p, n) ∈ patchCells W r ∧ |f r p n| = M) := by
    intro r
    obtain ⟨M, h1, h2, h3, h4⟩ := fold_max hm ((patchCells W r).map fun pn => f r pn.1 pn.2) 0
    refine ⟨M, ?_, h2, fun p n h => h3 _ (List.mem_map.2 ⟨_, h, rfl⟩), ?_⟩
    · rw [← h1, List.map_map]; rfl
    · rcases h4 with h4 | ⟨x, hx, h4⟩
      · exact .inl h4
      · obtain ⟨⟨p, n⟩, hp, rfl⟩ := List.mem_map.1 hx
        exact .inr ⟨p, n, hp, h4⟩
  choose L hL using hl
  obtain ⟨k, hk⟩ : ∃ k, W.n_ranks = k + 1 := ⟨W.n_ranks - 1, by omega⟩
  have e : (List.range W.n_ranks).map (fun r => norm_linf mx ((patchCells W r).map fun pn => some (f r pn.1 pn.2))) =
      some (L 0) :: (((List.range k).map fun r => L (r + 1)).map some) := by
    rw [hk, List.range_succ_eq_map, List.map_cons, (hL 0).1, List.map_map, List.map_map]
    congr 1
    exact List.map_congr_left fun r _ => (hL (r + 1)).1
  obtain ⟨M, h1, h2, h3, h4⟩ := fold_max' hm ((List.range k).map fun r => L (r + 1)) (L 0)
  have hr : ∀ r, r < W.n_ranks → L r ≤ M := by
    intro r hr
    rcases r with - | r
    · exact h2
    · exact h3 _ (List.mem_map.2 ⟨r, List.mem_range.2 (by omega), rfl⟩)
  have hex : ∃ r, r < W.n_ranks ∧ L r = M := by
    rcases h4 with h4 | ⟨x, hx, h4⟩
    · exact ⟨0, hW, h4.symm⟩
    · obtain ⟨r, hr, rfl⟩ := List.mem_map.1 hx
      exact ⟨r + 1, by have := List.mem_range.1 hr; omega, h4⟩
  refine ⟨M, ?_, (hL 0).2.1.trans h2, fun r p n hc => ?_, ?_⟩
  · unfold max_err
    rw [e]
    exact h1
  · exact ((hL r).2.2.1 p n (mem_patchCells.2 hc.2)).trans (hr r hc.1)
  · obtain ⟨r, hrl, hrM⟩ := hex
    rcases (hL r).2.2.2 with h0 | ⟨p, n, hp, h⟩
    · exact .inl (by rw [← hrM, h0])
    · exact .inr ⟨r, p, n, ⟨hrl, mem_patchCells.1 hp⟩, by rw [h, hrM]⟩

omit [IsStrictOrderedRing K] in
theorem replaceLo_layer {W : World} {bc : BndFields.FldBC → Bool} {res other : Fld K} {r p : ℕ} {n : I3} (hn : ∀ d, 0 ≤ n d)
    [Decidable (W.Layer (fun b => bc b = true) r p n)] :
    replaceLo W bc res other r p n = if W.Layer (fun b => bc b = true) r p n then other r p n else res r p n := by
  have aux : ∀ (l : List (Fin 3)) (f : I3 → F K),
      (l.foldl (fun res d => if (W.atLo r p d && bc (W.fld_lo d)) = true then fun n => if n d < 1 then other r p n else res n else res) f) n =
        open Classical in if ∃ d ∈ l, W.atLo r p d = true ∧ bc (W.fld_lo d) = true ∧ n d = 0 then other r p n else f n := by
    intro l
    induction l with
    | nil => intro f; simp
    | cons d l ih =>
      intro f
      rw [List.foldl_cons, ih]
      by_cases h : ∃ d ∈ l, W.atLo r p d = true ∧ bc (W.fld_lo d) = true ∧ n d = 0
      · rw [if_pos h, if_pos]
        obtain ⟨d', h1, h2⟩ := h
        exact ⟨d', by simp [h1], h2⟩
      · rw [if_neg h]
        by_cases hd : W.atLo r p d = true ∧ bc (W.fld_lo d) = true
        · rw [if_pos (by simp [hd])]
          by_cases h0 : n d < 1
          · have h0' : n d = 0 := by have := hn d; omega
            rw [if_pos h0, if_pos ⟨d, by simp, hd.1, hd.2, h0'⟩]
          · rw [if_neg h0, if_neg]
            rintro ⟨d', hd', h1, h2, h3⟩
            rcases List.mem_cons.1 hd' with rfl | hd'
            · omega
            · exact h ⟨d', hd', h1, h2, h3⟩
        · rw [if_neg (by simpa using hd), if_neg]
          rintro ⟨d', hd', h1, h2, h3⟩
          rcases List.mem_cons.1 hd' with rfl | hd'
          · exact hd ⟨h1, h2⟩
          · exact h ⟨d', hd', h1, h2, h3⟩
  unfold replaceLo
  rw [aux]
  have : (∃ d ∈ List.finRange 3, W.atLo r p d = true ∧ bc (W.fld_lo d) = true ∧ n d = 0) ↔ W.Layer (fun b => bc b = true) r p n := by
    unfold World.Layer
    simp
  by_cases h : W.Layer (fun b => bc b = true) r p n
  · rw [if_pos h, if_pos (this.2 h)]
  · rw [if_neg h, if_neg (fun h' => h (this.1 h'))]

theorem nodup_patchCells (W : World) (r : ℕ) : (patchCells W r).Nodup := by
  have hc : (Pic.cells W.ldims).Nodup := by
    unfold Pic.cells
    refine List.nodup_flatMap.2 ⟨fun k _ => List.nodup_flatMap.2 ⟨fun j _ => ?_, ?_⟩, ?_⟩
    · refine (List.nodup_range).map fun i i' h => ?_
      have := congrFun h 0
      simpa using this
    · refine (List.nodup_range).imp fun {j j'} hj => ?_
      intro n h1 h2
      obtain ⟨i, -, rfl⟩ := List.mem_map.1 h1
      obtain ⟨i', -, h⟩ := List.mem_map.1 h2
      exact hj (by have := congrFun h 1; simpa using this.symm)
    · refine (List.nodup_range).imp fun {k k'} hk => ?_
      intro n h1 h2
      obtain ⟨j, -, h1⟩ := List.mem_flatMap.1 h1
      obtain ⟨j', -, h2⟩ := List.mem_flatMap.1 h2
      obtain ⟨i, -, rfl⟩ := List.mem_map.1 h1
      obtain ⟨i', -, h⟩ := List.mem_map.1 h2
      exact hk (by have := congrFun h 2; simpa using this.symm)
  unfold patchCells
  refine List.nodup_flatMap.2 ⟨fun p _ => hc.map fun n n' h => by simpa using h, ?_⟩
  refine (List.nodup_range).imp fun {p p'} hp => ?_
  intro n h1 h2
  obtain ⟨i, -, rfl⟩ := List.mem_map.1 h1
  obtain ⟨i', -, h⟩ := List.mem_map.1 h2
  exact hp (by simpa using (congrArg Prod.fst h).symm)

/-- what `finish` reports for an error that vanishes in the cells that do not count -/
theorem finish_right {mx : F K → F K → F K} (hm : FMax mx) (prm : CheckParams K) (hthr : 0 < prm.err_threshold) (W : World)
    (hW : 0 < W.n_ranks) (counts : ℕ → ℕ → I3 → Prop) (dev : ℕ → ℕ → I3 → K) (f : Fld K) (f' : ℕ → ℕ → I3 → K)
    (hf : ∀ r p n, W.Cell r p n → f r p n = some (f' r p n)) (e1 e2 : Fld K)
    (he : ∀ r p n, W.Cell r p n → fabs (fsub (e1 r p n) (e2 r p n)) = some |f' r p n|)
    (hc : ∀ r p n, counts r p n → W.Cell r p n ∧ |f' r p n| = dev r p n)
    (hc' : ∀ r p n, W.Cell r p n → ¬ counts r p n → f' r p n = 0) (out : ℕ → Option (Outcome K))
    (ho : ∀ r, out r = some (finish prm W r (max_err mx W f) e1 e2)) : ∃ M, Right prm W counts dev M out := by
  obtain ⟨M, h1, h0, h2, h3⟩ := max_err_spec hm W f' hW
  have hmax : max_err mx W f = some M := by
    rw [← h1]
    unfold max_err
    have : (List.range W.n_ranks).map (fun r => norm_linf mx ((patchCells W r).map fun pn => f r pn.1 pn.2)) =
        (List.range W.n_ranks).map (fun r => norm_linf mx ((patchCells W r).map fun pn => some (f' r pn.1 pn.2))) := by
      refine List.map_congr_left fun r hr => ?_
      congr 1
      refine List.map_congr_left fun pn hp => ?_
      exact hf r pn.1 pn.2 ⟨List.mem_range.1 hr, mem_patchCells.1 hp⟩
    rw [this]
  have hatt : M = 0 ∨ ∃ r p n, counts r p n ∧ dev r p n = M := by
    rcases h3 with h3 | ⟨r, p, n, hcell, h3⟩
    · exact .inl h3
    · by_cases hcc : counts r p n
      · exact .inr ⟨r, p, n, hcc, by rw [← (hc r p n hcc).2, h3]⟩
      · rw [hc' r p n hcell hcc, abs_zero] at h3
        exact .inl h3.symm
  have hb : ∀ r p n, counts r p n → dev r p n ≤ M := fun r p n h => by
    rw [← (hc r p n h).2]; exact h2 r p n (hc r p n h).1
  have hlt : prm.err_threshold < M ↔ ∃ r p n, counts r p n ∧ prm.err_threshold < dev r p n := by
    constructor
    · intro h
      rcases hatt with h' | ⟨r, p, n, hcc, h'⟩
      · exact absurd h (by rw [h']; exact not_lt.2 hthr.le)
      · exact ⟨r, p, n, hcc, by rw [h']; exact h⟩
    · rintro ⟨r, p, n, hcc, h⟩
      exact h.trans_le (hb r p n hcc)
  have hle : prm.err_threshold ≤ M ↔ ∃ r p n, counts r p n ∧ prm.err_threshold ≤ dev r p n := by
    constructor
    · intro h
      rcases hatt with h' | ⟨r, p, n, hcc, h'⟩
      · exact absurd h (by rw [h']; exact not_le.2 hthr)
      · exact ⟨r, p, n, hcc, by rw [h']; exact h⟩
    · rintro ⟨r, p, n, hcc, h⟩
      exact h.trans (hb r p n hcc)
  refine ⟨M, hb, hatt, fun r hr => ⟨_, ho r, hmax, ?_, ?_, ?_, ?_, ?_⟩⟩
  · show (prm.exit_on_failure && fge (max_err mx W f) (some prm.err_threshold)) = true ↔ _
    rw [hmax, Bool.and_eq_true]
    show _ ∧ decide (_ ≤ _) = true ↔ _
    rw [decide_eq_true_iff, hle]
  · show (prm.dump_always || fgt (max_err mx W f) (some prm.err_threshold)) = true ↔ _
    rw [hmax, Bool.or_eq_true]
    show _ ∨ decide (_ < _) = true ↔ _
    rw [decide_eq_true_iff, hlt]
  · show (prm.print_max_err_always || fgt (max_err mx W f) (some prm.err_threshold)) = true ↔ _
    rw [hmax, Bool.or_eq_true]
    show _ ∨ decide (_ < _) = true ↔ _
    rw [decide_eq_true_iff, hlt]
  · show (if _ then _ else _ : List (ℕ × I3)).Nodup
    split_ifs
    · exact (nodup_patchCells W r).filter _
    · exact List.nodup_nil
  · intro p n
    show (p, n) ∈ (if fgt (max_err mx W f) (some prm.err_threshold) = true then print_diff W r e1 e2 prm.err_threshold else []) ↔ _
    rw [hmax]
    have hdiff : (p, n) ∈ print_diff W r e1 e2 prm.err_threshold ↔ counts r p n ∧ prm.err_threshold < dev r p n := by
      unfold print_diff
      rw [List.mem_filter]
      constructor
      · rintro ⟨ha, hb'⟩
        have hcell : W.Cell r p n := ⟨hr, mem_patchCells.1 ha⟩
        dsimp only at hb'
        rw [he r p n hcell] at hb'
        have hb'' : prm.err_threshold < |f' r p n| := of_decide_eq_true hb'
        have hcc : counts r p n := by
          by_contra hno
          rw [hc' r p n hcell hno, abs_zero] at hb''
          exact absurd hb'' (not_lt.2 hthr.le)
        exact ⟨hcc, by rw [← (hc r p n hcc).2]; exact hb''⟩
      · rintro ⟨hcc, hd⟩
        obtain ⟨hcell, hdev⟩ := hc r p n hcc
        refine ⟨mem_patchCells.2 hcell.2, ?_⟩
        dsimp only
        rw [he r p n hcell]
        exact decide_eq_true (by rw [hdev]; exact hd)
    by_cases h : prm.err_threshold < M
    · rw [if_pos (show fgt (some M) (some prm.err_threshold) = true from decide_eq_true h)]
      exact hdiff
    · rw [if_neg (show ¬ fgt (some M) (some prm.err_threshold) = true from fun h' => h (of_decide_eq_true h'))]
      constructor
      · intro h'; cases h'
      · rintro ⟨hcc, hd⟩
        exact absurd (hlt.2 ⟨r, p, n, hcc, hd⟩) h

omit [IsStrictOrderedRing K] in
theorem continuity_eq (mx : F K → F K → F K) (prm : CheckParams K) (W : World) (timestep : ℤ) (dt : K) (rho_m rho_p divj : Fld K)
    (hd : prm.should_do_check timestep = true) (r : ℕ) :
    continuity mx prm W timestep dt rho_m rho_p divj r =
      some (finish prm W r
        (max_err mx W fun r p n => fadd (fsub (rho_p r p n) (rho_m r p n)) (fmul (some dt)
          (replaceLo W (· == .open) divj (fun r p n => fdiv (fneg (fsub (rho_p r p n) (rho_m r p n))) (some dt)) r p n)))
        (fun r p n => fsub (rho_p r p n) (rho_m r p n))
        fun r p n => fneg (fmul (some dt)
          (replaceLo W (· == .open) divj (fun r p n => fdiv (fneg (fsub (rho_p r p n) (rho_m r p n))) (some dt)) r p n))) := by
  unfold continuity
  rw [hd]
  rfl

omit [IsStrictOrderedRing K] in
theorem gauss_eq (mx : F K → F K → F K) (prm : CheckParams K) (W : World) (timestep : ℤ) (rho dive : Fld K)
    (hd : prm.should_do_check timestep = true) (r : ℕ) :
    gauss mx prm W timestep rho dive r =
      some (finish prm W r
        (max_err mx W fun r p n => fsub (dive r p n) (replaceLo W (fun b => b == .conducting || b == .open) rho dive r p n))
        (fun r p n => replaceLo W (fun b => b == .conducting || b == .open) rho dive r p n) dive) := by
  unfold gauss
  rw [hd]
  rfl

/-! ## NaN -/

omit [IsStrictOrderedRing K] in
theorem nan_fold {mx : F K → F K → F K} (hm : FMax mx) {P : F K → Prop} : ∀ (l : List (F K)), (∀ x ∈ l, P x) → ∀ m, P m →
    P (l.foldl mx m)
  | [], _, m, h => h
  | x :: l, hl, m, h => by
    refine nan_fold hm l (fun y hy => hl y (by simp [hy])) _ ?_
    rcases hm.one m x with e | e
    · rw [e]; exact h
    · rw [e]; exact hl x (by simp)

omit [IsStrictOrderedRing K] in
theorem max_err_nan {mx : F K → F K → F K} (hm : FMax mx) (W : World) (f : Fld K) (hf : ∀ r p n, W.Cell r p n → f r p n = none ∨ f r p n = some 0)
    (h00 : fabs (some (0 : K)) = some 0) :
    max_err mx W f = none ∨ max_err mx W f = some 0 := by
  unfold max_err
  have hl : ∀ x ∈ (List.range W.n_ranks).map (fun r => norm_linf mx ((patchCells W r).map fun pn => f r pn.1 pn.2)), x = none ∨ x = some 0 := by
    intro x hx
    obtain ⟨r, hr, rfl⟩ := List.mem_map.1 hx
    unfold norm_linf
    rw [← List.foldl_map (f := fabs) (g := mx)]
    refine nan_fold (P := fun x => x = none ∨ x = some 0) hm _ ?_ _ (.inr rfl)
    intro y hy
    obtain ⟨z, hz, rfl⟩ := List.mem_map.1 hy
    obtain ⟨⟨p, n⟩, hp, rfl⟩ := List.mem_map.1 hz
    rcases hf r p n ⟨List.mem_range.1 hr, mem_patchCells.1 hp⟩ with h | h
    · left; show fabs (f r p n) = none; rw [h]; rfl
    · right; show fabs (f r p n) = some 0; rw [h]; exact h00
  generalize (List.range W.n_ranks).map (fun r => norm_linf mx ((patchCells W r).map fun pn => f r pn.1 pn.2)) = l at hl ⊢
  cases l with
  | nil => exact .inr rfl
  | cons a l => exact nan_fold (P := fun x => x = none ∨ x = some 0) hm l (fun x hx => hl x (by simp [hx])) a (hl a (by simp))

end Psc.Verdict
