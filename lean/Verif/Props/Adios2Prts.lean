import Verif.Lemmas.Adios2Prts

/-! C65: particle injection and ADIOS2 particle output -/

namespace Psc.Props

open Psc.A2
open Psc.Writer (Str)

variable {K : Type} [Field K]

section Output
variable [DecidableEq K]

/-- **C65 (files).** At every step at which output is due, for all particles on all ranks and every choice of columns, there is one file per
kind, in the order of the kinds.  Its rows correspond one to one to the particles of that kind on all ranks, and each row is that
particle's: position in the domain, momentum, charge, mass, weight, id and tag all in the same place in their columns.  The columns are
those asked for; charge and mass are attributes of the file if they are not columns.  Missing: the sub-box (`C65_subbox_violation`),
the output directory (`C65_dir_violation`) and weights of neutral particles (`C65_neutral_violation`). -/
theorem C65_files_partial (prm : Params) (kinds : List (Kind K)) (step : ℤ) (h0 : 0 < prm.every_step) (hs : prm.every_step ∣ step)
    (ranks : List (List (Patch K))) (hk : KindsOk kinds ranks) :
    ∃ files, perform prm kinds step ranks = some files ∧ files.length = kinds.length ∧
      ∀ k kind, kinds[k]? = some kind → ∃ (f : File K) (rows : List (Col → Val K)), files[k]? = some f ∧ f.kindName = kind.name ∧ f.step = step ∧
        rows.length = (ofKind ranks k).length ∧
        (∀ (i : ℕ) e, (ofKind ranks k)[i]? = some e → ∃ r, rows[i]? = some r ∧ Row kind e r) ∧
        (∀ c, f.cols c = if prm.write c then some (rows.map fun r => r c) else none) ∧
        (prm.write .q = false → f.qAttr = some kind.q) ∧ (prm.write .m = false → f.mAttr = some kind.m) := by
  have hd : ¬ (prm.every_step ≤ 0 ∨ step.tmod prm.every_step ≠ 0) := by
    rintro (h | h)
    · omega
    · exact h (Int.tmod_eq_zero_of_dvd hs)
  have hc : ∀ ps ∈ ranks, (count kinds.length ps).isSome := by
    intro ps hps
    obtain ⟨cnt, h1, -⟩ := count_spec kinds.length ps fun p hp prt h => hk (p, prt) (mem_everyone ranks ps hps p hp prt h)
    rw [h1]; rfl
  let g : ℕ → File K := fun k => (fileOf prm kinds step ranks k).getD ⟨[], 0, [], none, none, fun _ => none⟩
  have hg : ∀ k ∈ List.range kinds.length, fileOf prm kinds step ranks k = some (g k) := by
    intro k hk'
    have hlt := List.mem_range.1 hk'
    have := fileOf_spec prm kinds step ranks hk k kinds[k] (List.getElem?_eq_getElem hlt)
    simp only [g, this, Option.getD_some]
  refine ⟨(List.range kinds.length).map g, ?_, by simp, ?_⟩
  · rw [perform, if_neg hd, if_pos hc, mapM_range _ g _ hg]
  · intro k kind hkind
    have hlt : k < kinds.length := by
      by_contra h
      rw [List.getElem?_eq_none (by omega)] at hkind
      cases hkind
    have hf := fileOf_spec prm kinds step ranks hk k kind hkind
    refine ⟨g k, (ofKind ranks k).map fun e => entry kind e.1 e.2, by simp [hlt], ?_⟩
    simp only [g, hf, Option.getD_some, List.length_map, true_and]
    refine ⟨fun i e he => ⟨entry kind e.1 e.2, by simp [he], ?_⟩, fun c => ?_, fun h => by simp [h], fun h => by simp [h]⟩
    · refine ⟨?_, ?_, ?_, rfl, rfl, rfl, rfl, rfl, fun hq => ?_, rfl, rfl⟩
      · simp only [entry, position, add_comm]
      · simp only [entry, position, add_comm]
      · simp only [entry, position, add_comm]
      · exact ⟨e.2.qni_wni / kind.q, by simp only [entry, if_neg hq], div_mul_cancel₀ _ hq⟩
    · rw [List.map_map]; rfl

/-- **C65 (complete).** Every particle is of exactly one of the files' kinds: the particles of the files together are all particles, each
as often as it exists. -/
theorem C65_complete (kinds : List (Kind K)) (ranks : List (List (Patch K))) (hk : KindsOk kinds ranks) :
    ((List.range kinds.length).flatMap (ofKind ranks)).Perm (everyone ranks) :=
  split_kinds (fun e : Patch K × Prt K => e.2.kind) kinds.length (everyone ranks) hk

/-- two ranks, three patches, two kinds -/
def exA2kinds : List (Kind ℚ) := [⟨-1, 1, ['e']⟩, ⟨1, 100, ['i']⟩]
/-- see `exA2kinds` -/
def exA2ranks : List (List (Patch ℚ)) :=
  [[⟨![0, 0, 0], ![4, 4, 4], [⟨![1, 1, 1], ![0, 0, 1], -2, 0, 7, 0⟩, ⟨![2, 1, 3], ![0, 0, 0], 3, 1, 8, 0⟩]⟩],
   [⟨![4, 0, 0], ![8, 4, 4], []⟩, ⟨![8, 0, 0], ![12, 4, 4], [⟨![1, 1, 1], ![0, 0, 1], -2, 0, 9, 0⟩]⟩]]

example : KindsOk exA2kinds exA2ranks ∧
    ∃ f0 f1, perform { every_step := 10 } exA2kinds 20 exA2ranks = some [f0, f1] ∧
      f0.cols .x = some [.num 1, .num 9] ∧ f0.cols .w = some [.num 2, .num 2] ∧ f1.cols .x = some [.num 2] ∧
      f1.cols .id = none ∧ f0.name = "prt.e.000000020.bp".toList := by
  refine ⟨?_, _, _, rfl, ?_, ?_, ?_, rfl, by decide +kernel⟩
  · intro e he
    simp [everyone, exA2ranks] at he
    rcases he with rfl | rfl | rfl <;> decide
  · decide +kernel
  · decide +kernel
  · decide +kernel

/-- **C65 (when).** At other steps, and with output disabled, nothing is written. -/
theorem C65_not_due (prm : Params) (kinds : List (Kind K)) (step : ℤ) (h : prm.every_step ≤ 0 ∨ ¬ prm.every_step ∣ step)
    (ranks : List (List (Patch K))) : perform prm kinds step ranks = some [] := by
  rw [perform, if_pos]
  rcases h with h | h
  · exact Or.inl h
  · exact Or.inr fun h1 => h (Int.dvd_of_tmod_eq_zero h1)

/-- **C65 (is violated: sub-box).** The box of cells `lo`, `hi` that the parameters ask for is checked and then not used.  Whatever the box, the
files are the same; in the case below the box is the first cell of a 4-cell domain and a particle in the last cell is written. -/
theorem C65_subbox_violation :
    (∀ (prm : Params) (lo hi : I3) (kinds : List (Kind K)) (step : ℤ) (ranks : List (List (Patch K))),
      perform { prm with lo := lo, hi := hi } kinds step ranks = perform prm kinds step ranks) ∧
    ∃ (prm : Params) (f : File ℚ), adjust_params ![4, 1, 1] { every_step := 1, hi := ![1, 1, 1] } = some prm ∧
      perform prm [⟨-1, 1, ['e']⟩] 0 [[⟨![0, 0, 0], ![4, 1, 1], [⟨![7/2, 1/2, 1/2], ![0, 0, 0], -1, 0, 0, 0⟩]⟩]] = some [f] ∧
      f.cols .x = some [.num (7 / 2)] := by
  refine ⟨fun prm lo hi kinds step ranks => rfl, { every_step := 1, hi := ![1, 1, 1] }, _, ?_, rfl, by decide +kernel⟩
  rw [adjust_params]
  simp only
  rw [if_pos (by decide)]
  simp only [Option.some.injEq, Params.mk.injEq, true_and, and_true]
  funext d
  match d with
  | 0 => rfl
  | 1 => rfl
  | 2 => rfl

/-- **C65 (is violated: directory).** The output directory is not used: with any `data_dir` the files are the same, and their names
start with the base name, so they are in the working directory of the run. -/
theorem C65_dir_violation (prm : Params) (dir : Str) (kinds : List (Kind K)) (step : ℤ) (ranks : List (List (Patch K)))
    (files : List (File K)) (h : perform { prm with data_dir := dir } kinds step ranks = some files) :
    perform prm kinds step ranks = some files ∧
      ∀ f ∈ files, ∃ rest, f.name = prm.basename ++ ['.'] ++ rest := by
  refine ⟨h, fun f hf => ?_⟩
  rw [perform] at h
  split at h
  · cases h; cases hf
  · split at h
    · have hm := h
      have : ∀ (l : List ℕ) (fs : List (File K)), l.mapM (fileOf { prm with data_dir := dir } kinds step ranks) = some fs →
          ∀ f ∈ fs, ∃ rest, f.name = prm.basename ++ ['.'] ++ rest := by
        intro l
        induction l with
        | nil => intro fs h f hf; cases h; cases hf
        | cons k l ih =>
          intro fs h f hf
          rw [List.mapM_cons] at h
          cases h1 : fileOf { prm with data_dir := dir } kinds step ranks k with
          | none => rw [h1] at h; cases h
          | some f1 =>
            rw [h1] at h
            cases h2 : l.mapM (fileOf { prm with data_dir := dir } kinds step ranks) with
            | none => rw [h2] at h; cases h
            | some fs1 =>
              rw [h2] at h
              cases h
              rcases List.mem_cons.1 hf with rfl | hf
              · rw [fileOf] at h1
                cases h3 : kinds[k]? with
                | none => rw [h3] at h1; cases h1
                | some kind =>
                  rw [h3] at h1
                  simp only at h1
                  split at h1
                  · cases h1
                    exact ⟨_, by simp only [get_file_name, List.append_assoc]; rfl⟩
                  · cases h1
              · exact ih fs1 h2 f hf
      exact this _ _ hm f hf
    · cases h

example : ∃ f : File ℚ, perform { every_step := 1, data_dir := "/scratch".toList } [⟨-1, 1, ['e']⟩] 0 [[]] = some [f] ∧
    f.name = "prt.e.000000000.bp".toList := by
  refine ⟨_, rfl, by decide +kernel⟩

end Output

/-- **C65 (names).** For every base name, kinds and steps that are not negative: the name is `base.kind.<digits>.bp` with at least nine
digits that read as the step, and files of different kinds (by name) or steps have different names. -/
theorem C65_names (base n1 n2 : Str) (s1 s2 : ℤ) (h1 : 0 ≤ s1) (h2 : 0 ≤ s2) :
    (∃ ds, get_file_name base n1 s1 = base ++ ['.'] ++ n1 ++ ['.'] ++ ds ++ ".bp".toList ∧ 9 ≤ ds.length ∧ (∀ c ∈ ds, c.isDigit) ∧
      Nat.ofDigitChars 10 ds 0 = s1.toNat) ∧
    (get_file_name base n1 s1 = get_file_name base n2 s2 → n1 = n2 ∧ s1 = s2) := by
  refine ⟨⟨Psc.Writer.pad 9 s1.toNat, name_eq base n1 h1, ?_, Psc.Writer.pad_digit 9 _, Psc.Writer.pad_value 9 _⟩, name_inj h1 h2⟩
  rw [Psc.Writer.pad_length]; omega

section Inject
variable [LinearOrder K] [IsStrictOrderedRing K] [FloorRing K]

/-- **C65 (injection).** For every patch of `ldims` cells, every particle injected inside the patch, upper faces included: injection succeeds,
appends one particle and leaves the others alone.  The new particle has the momentum, kind and tag asked for, the id drawn, and the weight
asked for (times the charge of its kind); it is in one of the patch's cells; its position in the domain is the one asked for, except that on
an upper face it is moved inwards by a millionth of the patch's extent. -/
theorem C65_inject (kinds : List (Kind K)) (kind : Kind K) (dx : R3 K) (ldims : I3) (hdx : ∀ d, 0 < dx d) (hl : ∀ d, 0 < ldims d)
    (p : Patch K) (hp : ∀ d, p.xe d = p.xb d + ldims d * dx d) (new : Inject K) (hk : kinds[new.kind]? = some kind)
    (hx : ∀ d, p.xb d ≤ new.x d ∧ new.x d ≤ p.xe d) (uid : ℕ) :
    ∃ prt, inject kinds (fun d => 1 / dx d) ldims p new uid = some { p with prts := p.prts ++ [prt] } ∧
      prt.u = new.u ∧ prt.kind = new.kind ∧ prt.id = uid ∧ prt.tag = new.tag ∧ prt.qni_wni = new.w * kind.q ∧
      ∀ d, (0 ≤ prt.x d / dx d ∧ prt.x d / dx d < ldims d) ∧
        (new.x d < p.xe d → position (p, prt) d = new.x d) ∧
        (new.x d = p.xe d → position (p, prt) d = p.xe d - (p.xe d - p.xb d) / 1000000) := by
  have hne : ∀ d, dx d ≠ 0 := fun d => (hdx d).ne'
  have hq : ∀ d, (new.x d - p.xb d) * (1 / dx d) = (new.x d - p.xb d) / dx d := fun d => by rw [mul_one_div]
  have h0 : ∀ d, 0 ≤ (new.x d - p.xb d) * (1 / dx d) := fun d =>
    mul_nonneg (sub_nonneg.2 (hx d).1) (one_div_pos.2 (hdx d)).le
  have h1 : ∀ d, (new.x d - p.xb d) * (1 / dx d) ≤ ldims d := by
    intro d
    rw [hq, div_le_iff₀ (hdx d)]
    have := (hx d).2
    rw [hp d] at this
    linarith
  have heq : ∀ d, (new.x d - p.xb d) * (1 / dx d) = ldims d ↔ new.x d = p.xe d := by
    intro d
    rw [hq, div_eq_iff (hne d), hp d]
    constructor <;> intro h <;> linarith
  obtain ⟨hc, hin⟩ := check_spec (fun d => 1 / dx d) ldims (fun d => new.x d - p.xb d) h0 h1 hl
  obtain ⟨i, hi⟩ := validCellIndex_some (fun d => 1 / dx d) ldims _ (fun d => (hin d).1) (fun d => (hin d).2)
  refine ⟨⟨nudged (fun d => 1 / dx d) ldims fun d => new.x d - p.xb d, new.u, new.w * kind.q, new.kind, uid, new.tag⟩,
    ?_, rfl, rfl, rfl, rfl, rfl, fun d => ⟨?_, fun h => ?_, fun h => ?_⟩⟩
  · rw [inject, if_pos hx, hk]
    simp only [push_back, hc, hi, Option.bind_eq_bind, Option.bind_some, Option.pure_def]
  · have := hin d
    simp only [mul_one_div] at this
    exact this
  · simp only [position, nudged]
    rw [if_neg fun h' => h.ne ((heq d).1 h')]
    ring
  · simp only [position, nudged]
    rw [if_pos ((heq d).2 h), h]
    ring

/-- a patch and a particle on its upper face that meet the hypotheses -/
example : ∃ prt, inject [⟨(-1 : ℚ), 1, ['e']⟩] (fun _ => 1 / (1 / 2)) ![4, 4, 4] ⟨![2, 0, 0], ![4, 2, 2], []⟩
    ⟨![4, 1, 1], ![0, 0, 1], 3, 0, 5⟩ 7 = some ⟨![2, 0, 0], ![4, 2, 2], [prt]⟩ ∧ prt.qni_wni = -3 ∧ prt.id = 7 := by
  obtain ⟨prt, h1, h2, h3, h4, h5, h6, -⟩ := C65_inject [⟨(-1 : ℚ), 1, ['e']⟩] ⟨-1, 1, ['e']⟩ (fun _ => 1 / 2) ![4, 4, 4]
    (fun _ => by norm_num) (by decide) ⟨![2, 0, 0], ![4, 2, 2], []⟩ (by
      intro d
      match d with
      | 0 => simp; norm_num
      | 1 => simp; norm_num
      | 2 => simp; norm_num) ⟨![4, 1, 1], ![0, 0, 1], 3, 0, 5⟩ rfl (by
      intro d
      match d with
      | 0 => simp; norm_num
      | 1 => simp
      | 2 => simp) 7
  exact ⟨prt, h1, by rw [h6]; norm_num, h4⟩

/-- **C65 (weights come back).** A particle injected with weight `w` of a charged kind has `w` in its row. -/
theorem C65_weight [DecidableEq K] (kind : Kind K) (hq : kind.q ≠ 0) (p : Patch K) (prt : Prt K) (w : K) (h : prt.qni_wni = w * kind.q) :
    entry kind p prt .w = .num w := by
  simp only [entry, if_neg hq, h, mul_div_cancel_right₀ _ hq]

/-- **C65 (is violated: neutral particles).** Injection stores the weight times the charge of the kind, so for a kind without charge all weights
give the same particle, and its row has no weight (0/0). -/
theorem C65_neutral_violation [DecidableEq K] (kinds : List (Kind K)) (kind : Kind K) (hq : kind.q = 0) (dxi : R3 K) (ldims : I3) (p : Patch K)
    (new : Inject K) (hk : kinds[new.kind]? = some kind) (w : K) (uid : ℕ) :
    inject kinds dxi ldims p { new with w := w } uid = inject kinds dxi ldims p new uid ∧
      ∀ prt, entry kind p prt .w = .nan := by
  refine ⟨?_, fun prt => by simp only [entry, if_pos hq]⟩
  simp only [inject, hk, hq, mul_zero]

end Inject

end Psc.Props
