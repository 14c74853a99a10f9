import Verif.Lemmas.Options
import Verif.Model.Domain

/-!
# C90: options on the command line
-/

namespace Psc.Props

open Psc.Options

/-- C90: what the program takes from the command line.  The arguments are taken for these options exactly if they are these options written out,
with values that do not begin with two dashes; so no other reading of the command line is possible, and a command line that cannot be read is
refused. -/
theorem C90_args (args : List Str) (opts : List Opt) :
    init args = some opts ↔ argv opts = args ∧ ∀ o ∈ opts, ∀ v, o.value = some v → ¬∃ r, v = "--".toList ++ r := by
  have hd : ∀ v : Str, dashed v = false ↔ ¬∃ r, v = "--".toList ++ r := by
    intro v
    rw [← dashed_iff]
    simp
  simp only [← hd]
  constructor
  · exact argv_init args opts
  · rintro ⟨rfl, h⟩
    exact init_argv opts h

/-- an option without and one with a value, which is a negative number -/
example : argv [⟨"help".toList, none⟩, ⟨"mrc_crds_lx".toList, some "-3".toList⟩] =
      ["--help".toList, "--mrc_crds_lx".toList, "-3".toList] ∧
    init ["--help".toList, "--mrc_crds_lx".toList, "-3".toList] =
      some [⟨"help".toList, none⟩, ⟨"mrc_crds_lx".toList, some "-3".toList⟩] ∧
    init ["-help".toList] = none := by decide +kernel

/-- C90, what a user relies on, for options whose texts mean something (`C90_text_violation`: others are not always refused): each variable of an
object gets the value that the first option named after object and variable means; if there is none, the first option named after the variable
alone; if there is none either, it keeps the value the program gave it.  All other variables keep theirs. -/
theorem C90_value_partial {K : Type} (scanDouble : Str → Option K) (opts : List Opt) (title : Str) (cls ops : List Param) (m : Mem K)
    (hd : (((cls ++ ops).flatMap Param.vars).map Prod.fst).Nodup)
    (hv : ∀ n k, (n, k) ∈ (cls ++ ops).flatMap Param.vars → ∀ v, First opts n v ∨ First opts (title ++ '_' :: n) v →
      ∃ x, Means scanDouble k v x) :
    ∃ m', set_from_options scanDouble opts title cls ops m = .ok m' ∧
      (∀ n k, (n, k) ∈ (cls ++ ops).flatMap Param.vars →
        (∀ v, First opts (title ++ '_' :: n) v → Means scanDouble k v (m' n)) ∧
        (¬Given opts (title ++ '_' :: n) → ∀ v, First opts n v → Means scanDouble k v (m' n)) ∧
        (¬Given opts (title ++ '_' :: n) → ¬Given opts n → m' n = m n)) ∧
      ∀ n, (∀ k, (n, k) ∉ (cls ++ ops).flatMap Param.vars) → m' n = m n := by
  rw [List.flatMap_append] at hd hv ⊢
  rw [List.map_append, List.nodup_append] at hd
  obtain ⟨dc, dop, dis⟩ := hd
  have dis1 : ∀ n k k', (n, k) ∈ cls.flatMap Param.vars → (n, k') ∉ ops.flatMap Param.vars := fun n k k' h h' =>
    dis n (List.mem_map_of_mem (f := Prod.fst) h) n (List.mem_map_of_mem (f := Prod.fst) h') rfl
  obtain ⟨m1, e1, h1⟩ := pass_ok scanDouble opts id (cls.flatMap Param.vars) m dc fun n k hk v hf =>
    hv n k (List.mem_append_left _ hk) v (Or.inl ((find_some _ _ _).1 hf))
  obtain ⟨m2, e2, h2⟩ := pass_ok scanDouble opts (pfx title) (cls.flatMap Param.vars) m1 dc fun n k hk v hf =>
    hv n k (List.mem_append_left _ hk) v (Or.inr ((find_some _ _ _).1 hf))
  obtain ⟨m3, e3, h3⟩ := pass_ok scanDouble opts id (ops.flatMap Param.vars) m2 dop fun n k hk v hf =>
    hv n k (List.mem_append_right _ hk) v (Or.inl ((find_some _ _ _).1 hf))
  obtain ⟨m4, e4, h4⟩ := pass_ok scanDouble opts (pfx title) (ops.flatMap Param.vars) m3 dop fun n k hk v hf =>
    hv n k (List.mem_append_right _ hk) v (Or.inr ((find_some _ _ _).1 hf))
  have k1 := pass_keep scanDouble opts id _ _ _ e1
  have k2 := pass_keep scanDouble opts (pfx title) _ _ _ e2
  have k3 := pass_keep scanDouble opts id _ _ _ e3
  have k4 := pass_keep scanDouble opts (pfx title) _ _ _ e4
  refine ⟨m4, ?_, ?_, ?_⟩
  · unfold set_from_options
    simp only [bind, Except.bind, e1, e2, e3, e4]
  · intro n k hk
    rcases List.mem_append.1 hk with hk | hk
    · have e42 : m4 n = m2 n := (k4 n (Or.inr fun k' => dis1 n k k' hk)).trans (k3 n (Or.inr fun k' => dis1 n k k' hk))
      rw [e42]
      refine ⟨fun v hf => h2 n k hk v ((find_some _ _ _).2 hf), fun hg v hf => ?_, fun hg hg' => ?_⟩
      · rw [k2 n (Or.inl ((find_none _ _).2 hg))]
        exact h1 n k hk v ((find_some _ _ _).2 hf)
      · rw [k2 n (Or.inl ((find_none _ _).2 hg)), k1 n (Or.inl ((find_none _ _).2 hg'))]
    · have e20 : m2 n = m n := (k2 n (Or.inr fun k' h => dis1 n k' k h hk)).trans (k1 n (Or.inr fun k' h => dis1 n k' k h hk))
      refine ⟨fun v hf => h4 n k hk v ((find_some _ _ _).2 hf), fun hg v hf => ?_, fun hg hg' => ?_⟩
      · rw [k4 n (Or.inl ((find_none _ _).2 hg))]
        exact h3 n k hk v ((find_some _ _ _).2 hf)
      · rw [k4 n (Or.inl ((find_none _ _).2 hg)), k3 n (Or.inl ((find_none _ _).2 hg')), e20]
  · intro n hn
    have hc : ∀ k, (n, k) ∉ cls.flatMap Param.vars := fun k hk => hn k (List.mem_append_left _ hk)
    have ho : ∀ k, (n, k) ∉ ops.flatMap Param.vars := fun k hk => hn k (List.mem_append_right _ hk)
    rw [k4 n (Or.inr ho), k3 n (Or.inr ho), k2 n (Or.inr hc), k1 n (Or.inr hc)]

/-- the names of the options of the domain differ, and these options mean something: the curve is set by its prefixed option, although another one
comes first, and the boundary condition in z by the first of two -/
example : (((domain_descr ++ multi_descr).flatMap Param.vars).map Prod.fst).Nodup ∧
    (set_from_options (K := Unit) (fun _ => none)
      [⟨"curve_type".toList, some "Morton".toList⟩, ⟨"mrc_domain_curve_type".toList, some "HILBERT".toList⟩,
        ⟨"bcz".toList, some "none".toList⟩, ⟨"bcz".toList, some "periodic".toList⟩] "mrc_domain".toList domain_descr multi_descr
      (deckMem ![1, 8, 8] ![1, 2, 2] (fun _ => true) (-1))).toOption.map
        (fun m => [m "curve_type".toList, m "bcz".toList, m "bcy".toList, m "my".toList]) =
      some [.int 2, .int 0, .int 1, .int 8] := by decide +kernel

example : Means (K := Unit) (fun _ => none) .int (some "-12".toList) (.int (-12)) :=
  ⟨true, [1, 2], by simp, by decide, by decide, by decide, by decide⟩

/-- C90: an option whose text means nothing ends the program, whichever of the two names it has, and whatever other options there are. -/
theorem C90_refused {K : Type} (scanDouble : Str → Option K) (opts : List Opt) (title : Str) (cls ops : List Param) (m : Mem K) (n : Str)
    (k : Kind) (hk : (n, k) ∈ (cls ++ ops).flatMap Param.vars) (v : Option Str) (hf : First opts n v ∨ First opts (title ++ '_' :: n) v)
    (hb : Meaningless scanDouble k v) : ∃ e, set_from_options scanDouble opts title cls ops m = .error e := by
  rw [List.flatMap_append] at hk
  unfold set_from_options
  have er : ∀ (x : Except Err (Mem K)) (f : Mem K → Except Err (Mem K)), (∃ e, x = .error e) → ∃ e, (x >>= f) = .error e := by
    rintro x f ⟨e, rfl⟩
    exact ⟨e, rfl⟩
  have ef : ∀ (x : Except Err (Mem K)) (f : Mem K → Except Err (Mem K)), (∀ y, ∃ e, f y = .error e) → ∃ e, (x >>= f) = .error e := by
    intro x f h
    cases x with
    | error e => exact ⟨e, rfl⟩
    | ok y => exact h y
  rcases List.mem_append.1 hk with hk | hk
  · rcases hf with hf | hf
    · exact er _ _ (pass_refuses scanDouble opts id n k v ((find_some _ _ _).2 hf) hb _ _ hk)
    · exact ef _ _ fun y => er _ _ (pass_refuses scanDouble opts (pfx title) n k v ((find_some _ _ _).2 hf) hb _ _ hk)
  · rcases hf with hf | hf
    · exact ef _ _ fun y => ef _ _ fun y => er _ _ (pass_refuses scanDouble opts id n k v ((find_some _ _ _).2 hf) hb _ _ hk)
    · exact ef _ _ fun y => ef _ _ fun y => ef _ _ fun y =>
        pass_refuses scanDouble opts (pfx title) n k v ((find_some _ _ _).2 hf) hb _ _ hk

/-- a boundary condition that does not exist, and a number of cells without a number -/
example : Meaningless (K := Unit) (fun _ => none) (.select bc_descr) (some "open".toList) ∧
    Meaningless (K := Unit) (fun _ => none) .int (some "many".toList) ∧
    (set_from_options (K := Unit) (fun _ => none) [⟨"bcx".toList, some "open".toList⟩] "mrc_domain".toList domain_descr multi_descr
      (deckMem ![1, 8, 8] ![1, 2, 2] (fun _ => true) (-1))).toOption.isNone := by
  refine ⟨Or.inr ⟨_, rfl, by unfold SameText; decide +kernel⟩, Or.inr ⟨_, rfl, by decide +kernel⟩, by decide +kernel⟩

/-- C90, what holds: if no option sets the number of cells, the patches of the grid tile the domain of the deck, whatever other options are given;
options for the number of patches are refused unless they say what the deck says. -/
theorem C90_tiles_partial (opts : List Opt) (gdims np : Fin 3 → ℤ) (hd : Deck gdims np) (periodic : Fin 3 → Bool) (nr : ℤ) (D : Made)
    (h : mrcDomain opts gdims np periodic nr = .ok D)
    (hm : ∀ n ∈ ["mx".toList, "my".toList, "mz".toList, "mrc_domain_mx".toList, "mrc_domain_my".toList, "mrc_domain_mz".toList],
      ¬Given opts n) :
    Tiles gdims np (D.off np) (ldims gdims np) := by
  obtain ⟨h1, mem, he, h2, -, -⟩ := mrcDomain_ok opts gdims np periodic nr D h
  rw [tiles_iff gdims np hd D h1]
  unfold set_from_options at he
  have bs : ∀ (x : Except Err (Mem Unit)) (f : Mem Unit → Except Err (Mem Unit)) (y : Mem Unit), (x >>= f) = .ok y →
      ∃ z, x = .ok z ∧ f z = .ok y := by
    intro x f y hxy
    cases x with
    | error e => cases hxy
    | ok z => exact ⟨z, rfl, hxy⟩
  obtain ⟨m1, e1, he⟩ := bs _ _ _ he
  obtain ⟨m2, e2, he⟩ := bs _ _ _ he
  obtain ⟨m3, e3, e4⟩ := bs _ _ _ he
  have k : ∀ n, ¬Given opts n → ¬Given opts (pfx "mrc_domain".toList n) → mem n = deckMem gdims np periodic nr n := by
    intro n ha hb
    rw [pass_keep _ opts _ _ _ _ e4 n (Or.inl ((find_none _ _).2 hb)), pass_keep _ opts _ _ _ _ e3 n (Or.inl ((find_none _ _).2 ha)),
      pass_keep _ opts _ _ _ _ e2 n (Or.inl ((find_none _ _).2 hb)), pass_keep _ opts _ _ _ _ e1 n (Or.inl ((find_none _ _).2 ha))]
  intro d
  left
  rw [h2 d]
  fin_cases d
  · exact congrArg Val.toInt (k "mx".toList (hm _ (by simp)) (hm "mrc_domain_mx".toList (by simp)))
  · exact congrArg Val.toInt (k "my".toList (hm _ (by simp)) (hm "mrc_domain_my".toList (by simp)))
  · exact congrArg Val.toInt (k "mz".toList (hm _ (by simp)) (hm "mrc_domain_mz".toList (by simp)))

/-- C90: options for the number of patches cannot change it. -/
theorem C90_np (opts : List Opt) (gdims np : Fin 3 → ℤ) (periodic : Fin 3 → Bool) (nr : ℤ) (D : Made)
    (h : mrcDomain opts gdims np periodic nr = .ok D) (d : Fin 3) (s : Str) (n : ℤ)
    (hf : First opts ("mrc_domain_np".toList ++ [comp d]) (some s) ∨
      ¬Given opts ("mrc_domain_np".toList ++ [comp d]) ∧ First opts ("np".toList ++ [comp d]) (some s)) (hs : scanInt s = some n) : n = np d := by
  obtain ⟨-, mem, he, -, h3, -⟩ := mrcDomain_ok opts gdims np periodic nr D h
  unfold set_from_options at he
  have bs : ∀ (x : Except Err (Mem Unit)) (f : Mem Unit → Except Err (Mem Unit)) (y : Mem Unit), (x >>= f) = .ok y →
      ∃ z, x = .ok z ∧ f z = .ok y := by
    intro x f y hxy
    cases x with
    | error e => cases hxy
    | ok z => exact ⟨z, rfl, hxy⟩
  obtain ⟨m1, e1, he⟩ := bs _ _ _ he
  obtain ⟨m2, e2, he⟩ := bs _ _ _ he
  obtain ⟨m3, e3, e4⟩ := bs _ _ _ he
  have hin : ("np".toList ++ [comp d], Kind.int) ∈ multi_descr.flatMap Param.vars := by
    fin_cases d <;> simp [multi_descr, Param.vars, comp]
  have key : mem ("np".toList ++ [comp d]) = .int n := by
    rcases hf with hf | ⟨hg, hf⟩
    · exact pass_int (K := Unit) (fun _ => none) opts (pfx "mrc_domain".toList) ("np".toList ++ [comp d]) s n
        ((find_some _ _ _).2 hf) hs _ _ _ (by decide +kernel) hin e4
    · rw [pass_keep _ opts _ _ _ _ e4 ("np".toList ++ [comp d]) (Or.inl ((find_none _ _).2 hg))]
      exact pass_int (K := Unit) (fun _ => none) opts id ("np".toList ++ [comp d]) s n
        ((find_some _ _ _).2 hf) hs _ _ _ (by decide +kernel) hin e3
  rw [h3 d, key]
  rfl

/-- a grid of 8 times 8 cells in 2 times 2 patches, with options for the curve and for the number of patches -/
example : Deck ![1, 8, 8] ![1, 2, 2] ∧
    (mrcDomain [⟨"curve_type".toList, some "hilbert".toList⟩, ⟨"npy".toList, some "2".toList⟩] ![1, 8, 8] ![1, 2, 2] (fun _ => true) (-1)).toOption.map
      (fun D => (D.m 1, D.off ![1, 2, 2] ![0, 1, 1] 1, D.bc 0, D.bc 1)) = some (8, 4, false, true) ∧
    (mrcDomain [⟨"mrc_domain_npy".toList, some "4".toList⟩] ![1, 8, 8] ![1, 2, 2] (fun _ => true) (-1)).toOption.isNone :=
  ⟨⟨by decide, by decide, by decide⟩, by decide +kernel, by decide +kernel⟩

/-- C90 does not hold as stated: the number of cells can be changed by an option, without an error, and the patches tile the domain only in those
directions in which there is just one of them. -/
theorem C90_cells_violation (opts : List Opt) (gdims np : Fin 3 → ℤ) (hd : Deck gdims np) (periodic : Fin 3 → Bool) (nr : ℤ) (D : Made)
    (h : mrcDomain opts gdims np periodic nr = .ok D) :
    Tiles gdims np (D.off np) (ldims gdims np) ↔ ∀ d, D.m d = gdims d ∨ np d = 1 :=
  tiles_iff gdims np hd D (mrcDomain_ok opts gdims np periodic nr D h).1

/-- with `--my 4`, in two patches of 4 cells, the second patch begins at cell 2: the last two cells belong to no patch -/
example : ∃ D, init ["--my".toList, "4".toList] >>= (fun opts =>
      (mrcDomain opts ![1, 8, 8] ![1, 2, 2] (fun _ => true) (-1)).toOption) = some D ∧
    D.m 1 = 4 ∧ D.off ![1, 2, 2] ![0, 1, 0] 1 = 2 ∧ ldims ![1, 8, 8] ![1, 2, 2] 1 = 4 :=
  ⟨_, rfl, by decide +kernel, by decide +kernel, by decide +kernel⟩

/-- C90 does not hold as stated: an option may also open the domain of a deck whose boundaries are periodic.  Then patches at the boundary have no
neighbours beyond it. -/
theorem C90_periodic_violation : ∃ D, mrcDomain [⟨"bcy".toList, some "none".toList⟩] ![1, 8, 8] ![1, 2, 2] (fun _ => true) (-1) = .ok D ∧
    Domain.nei1 2 (Domain.mrc_bc (fun _ => true) ![1, 8, 8] 1) 1 1 = some 0 ∧ Domain.nei1 2 (D.bc 1) 1 1 = none :=
  ⟨_, rfl, by decide +kernel, by decide +kernel⟩

/-- C90 does not hold as stated: an integer followed by anything else is taken for the integer, and a component of a triple of doubles that is no
number leaves the variable as it was. -/
theorem C90_text_violation {K : Type} (scanDouble : Str → Option K) (old : Val K) (s : Str) (hs : scanDouble s = none) :
    assign scanDouble .int (some "16x16".toList) old = .ok (.int 16) ∧ assign scanDouble .int (some "1e6".toList) old = .ok (.int 1) ∧
    assign scanDouble .dbl3 (some s) old = .ok old := by
  refine ⟨rfl, rfl, ?_⟩
  rw [assign, hs]

/-- C90 does not hold as stated: all output goes to the same files if an option sets their name, as it does for every output. -/
theorem C90_output_violation (pfx1 pfx2 dir s : Str) (opts : List Opt) (ops : List Param) (h : First opts "mrc_io_basename".toList (some s))
    (hops : ∀ k, ("basename".toList, k) ∉ ops.flatMap Param.vars) (r1 r2 : Option Str × Option Str)
    (h1 : openWriter opts ops pfx1 dir = .ok r1) (h2 : openWriter opts ops pfx2 dir = .ok r2) : r1.2 = some s ∧ r2.2 = some s := by
  have key : ∀ p r, openWriter opts ops p dir = .ok r → r.2 = some s := by
    intro p r hr
    unfold openWriter at hr
    have bs : ∀ {α : Type} (x : Except Err (Mem Unit)) (f : Mem Unit → Except Err α) (y : α), (x >>= f) = .ok y →
        ∃ z, x = .ok z ∧ f z = .ok y := by
      intro α x f y hxy
      cases x with
      | error e => cases hxy
      | ok z => exact ⟨z, rfl, hxy⟩
    obtain ⟨mem, he, hr⟩ := bs _ _ _ hr
    unfold set_from_options at he
    obtain ⟨m1, e1, he⟩ := bs _ _ _ he
    obtain ⟨m2, e2, he⟩ := bs _ _ _ he
    obtain ⟨m3, e3, e4⟩ := bs _ _ _ he
    have a := pass_str (K := Unit) (fun _ => none) opts (Options.pfx "mrc_io".toList) "basename".toList (some s) ((find_some _ _ _).2 h) _ _ _
      (by decide +kernel) (by simp [io_descr, Param.vars]) e2
    have b : mem "basename".toList = .str (some s) := by
      rw [pass_keep _ opts _ _ _ _ e4 _ (Or.inr hops), pass_keep _ opts _ _ _ _ e3 _ (Or.inr hops), a]
    cases hr
    simp only [b]
  exact ⟨key pfx1 r1 h1, key pfx2 r2 h2⟩

/-- the files of fields and of moments -/
example : openWriter [⟨"mrc_io_basename".toList, some "run1".toList⟩] [] "pfd".toList ".".toList = .ok (some ".".toList, some "run1".toList) ∧
    openWriter [⟨"mrc_io_basename".toList, some "run1".toList⟩] [] "pfd_moments".toList ".".toList =
      .ok (some ".".toList, some "run1".toList) := ⟨rfl, rfl⟩

end Psc.Props
