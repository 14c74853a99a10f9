import Verif.Spec.DeferredIO
import Verif.Lemmas.DeferredIO
import Mathlib.Tactic.NormNum

/-!
# Property C99: checkpoints and fields written with deferred input and output
-/

namespace Psc.Props

open Psc Psc.DeferredIO

/-- a checkpoint of a process with two patches and two components of particles; every datum is a number of its own -/
private def someData99 : Data ℕ :=
  { gridAttrs := [(["ldims"], 1), (["dt"], 2)]
    n_local := 2
    off := 11
    xb := 12
    xe := 13
    sizes := 14
    comps := [("x", 15), ("w", 16)]
    ib := 3
    im := 4
    n_patches := 2
    fld := fun p => 20 + p }

private theorem someNames99 : Names (someData99.comps.map Prod.fst) := ⟨by decide, by decide, by decide⟩

/-- **C99 (names).** Different paths of names without colons are kept under different names. -/
theorem C99_names (p q : List (List Char)) (hp : p ≠ []) (hq : q ≠ []) (hpc : ∀ x ∈ p, ':' ∉ x) (hqc : ∀ x ∈ q, ':' ∉ x)
    (h : name p = name q) : p = q := name_inj hp hq hpc hqc h

example : name ["mflds".toList, "mflds".toList] = "mflds::mflds".toList ∧ ':' ∉ "mflds".toList := by decide

/-- names with colons can be kept under the same name -/
example : name ["a:".toList, "b".toList] = name ["a".toList, ":b".toList] := by decide

/-- **C99 (writing a checkpoint).** Whenever and in whatever order deferred puts are carried out, the file holds exactly what
it is to hold, and no memory was touched that is not alive. -/
theorem C99_write {V : Type} (D : Data V) (hN : Names (D.comps.map Prod.fst)) (src : Key → V) (s : St Key Mem V)
    (h : Ends src (begins (fieldMem D)) (write_checkpoint D) s) :
    s.bad = false ∧ s.pend = [] ∧ (∀ kv ∈ contents D, s.file kv.1 = some kv.2) ∧
      ∀ k, k ∉ (contents D).map Prod.fst → s.file k = none := by
  obtain ⟨h1, h2⟩ := (careful_write D hN).ends h
  have hw := wrote_checkpoint (src := src) D
  rw [← h1] at hw
  exact ⟨h2, hw.pend, fun kv hkv => hw.file ▸ upd_mem (contents_nodup D hN) hkv _, fun k hk => hw.file ▸ upd_other hk _⟩

/-- there are such runs -/
example : ∃ s, Ends (fun _ => 0) (begins (fieldMem someData99)) (write_checkpoint someData99) s := ⟨_, ends_self _ _⟩

example : (contents someData99).map Prod.snd = [2, 11, 12, 13, 14, 15, 16, 20, 21] := by decide

/-- **C99 (writing a field).** The same for a field that is written from a copy that does not outlive the call. -/
theorem C99_field {V : Type} (nm : String) (D : Data V) (src : Key → V) (s : St Key Mem V)
    (h : Ends src (begins fun _ => none) (writeField nm D) s) :
    s.bad = false ∧ (∀ p < D.n_patches, s.file (var [nm] p) = some (D.fld p)) ∧
      ∀ k, (∀ p < D.n_patches, k ≠ var [nm] p) → s.file k = none := by
  obtain ⟨h1, h2⟩ := (careful_field (L := fun x => ((fun _ => none : Mem → Option V) x).isSome) D fun _ => rfl).ends h
  have hw := wrote_field (src := src) nm D
  rw [← h1] at hw
  refine ⟨h2, fun p hp => ?_, fun k hk => ?_⟩
  · rw [hw]
    exact upd_mem (map_range_nodup _) (List.mem_map.2 ⟨p, List.mem_range.2 hp, rfl⟩) _
  · rw [hw]
    refine upd_other (fun hm => ?_) _
    rw [List.map_map] at hm
    obtain ⟨p, hp, e⟩ := List.mem_map.1 hm
    exact hk p (List.mem_range.1 hp) e.symm

example : ∃ s, Ends (fun _ => 0) (begins fun _ => none) (writeField "jx" someData99) s := ⟨_, ends_self _ _⟩

/-- **C99 (reading a checkpoint), partial.** If the number of patches is read at once, everything the program uses is what the file
holds, whenever the other deferred gets are carried out, and no memory is touched that is not alive.  Missing: the code defers
reading the number of patches (`C99_n_local_violation`). -/
theorem C99_read_partial {V : Type} (zero : V) (comps : List String) (n_patches : ℕ) (src : Key → V) (s : St Key Mem V)
    (h : Ends src (begins fun _ => none) (read_checkpoint zero comps n_patches .Blocking) s) :
    s.bad = false ∧ s.seen =
      [src (var ["grid", "n_local"]), src (var ["grid", "off"]), src (var ["grid", "xb"]), src (var ["grid", "xe"]),
        src (var ["mprts", "size_by_patch"])] ++ comps.map (fun c => src (var ["mprts", c])) ++
      (List.range n_patches).map fun p => src (var ["mflds", "mflds"] p) := by
  obtain ⟨h1, h2⟩ := (careful_read (L := fun x => ((fun _ => none : Mem → Option V) x).isSome) fun _ => rfl).ends h
  exact ⟨h2, h1 ▸ saw_checkpoint _ _⟩

example : ∃ s, Ends (fun _ => 7) (begins fun _ => none) (read_checkpoint 0 ["x", "w"] 2 .Blocking) s := ⟨_, ends_self _ _⟩

/-- **C99 (round trip), partial.** If the number of patches is read at once, what is read from a checkpoint is what was written to it,
whenever the deferred operations of the one or the other are carried out. -/
theorem C99_round_trip_partial {V : Type} (D : Data V) (hN : Names (D.comps.map Prod.fst)) (zero : V) (src0 src : Key → V)
    (s s' : St Key Mem V) (hw : Ends src0 (begins (fieldMem D)) (write_checkpoint D) s) (hsrc : ∀ k v, s.file k = some v → src k = v)
    (hr : Ends src (begins fun _ => none) (read_checkpoint zero (D.comps.map Prod.fst) D.n_patches .Blocking) s') :
    s'.seen = (contents D).map Prod.snd := by
  have hc : ∀ kv ∈ contents D, src kv.1 = kv.2 := fun kv hkv => hsrc _ _ ((C99_write D hN src0 s hw).2.2.1 kv hkv)
  have e : (contents D).map Prod.snd = (contents D).map fun kv => src kv.1 := List.map_congr_left fun kv hkv => (hc kv hkv).symm
  rw [(C99_read_partial zero _ _ src s' hr).2, e]
  simp [contents, Function.comp_def]

example : ∃ s : St Key Mem ℕ, Ends (fun _ => 0) (begins (fieldMem someData99)) (write_checkpoint someData99) s ∧
    ∃ src, (∀ k v, s.file k = some v → src k = v) ∧
      ∃ s', Ends src (begins fun _ => none) (read_checkpoint 0 (someData99.comps.map Prod.fst) someData99.n_patches .Blocking) s' :=
  ⟨_, ends_self _ _, fun k => ((write_checkpoint someData99).foldl (exec fun _ => 0) (begins (fieldMem someData99))).file k |>.getD 0,
    fun k v h => by simp only [h, Option.getD_some], _, ends_self _ _⟩

/-- **C99, violated.** Whatever the file holds, reading a checkpoint can end with the program having used an initial value in place of
the number of patches, and with memory written that is no longer alive: `Local::get` uses and gives up the memory that it has asked
to be filled later. -/
theorem C99_n_local_violation {V : Type} (zero : V) (comps : List String) (n_patches : ℕ) (src : Key → V) :
    ∃ s, Ends src (begins fun _ => none) (read_checkpoint zero comps n_patches) s ∧ s.bad = true ∧ s.seen.head? = some zero :=
  ⟨_, ends_self _ _, read_bad.1, read_bad.2⟩

/-- **C99, violated.** Reading the fields begins a step while reading a checkpoint has begun one and not ended it. -/
theorem C99_steps_violation {V : Type} (zero : V) (comps : List String) (n_patches : ℕ) (launch : Mode) :
    ¬ Bracketed false (read_checkpoint zero comps n_patches launch) := by
  have hskip : ∀ (l r : List (Op Key Mem V)) (b : Bool), (∀ o ∈ l, o ≠ .beginStep ∧ o ≠ .endStep) →
      (Bracketed b (l ++ r) ↔ Bracketed b r) := by
    intro l
    induction l with
    | nil => exact fun r b _ => Iff.rfl
    | cons o l ih =>
      intro r b ho
      rw [← ih r b fun o ho' => ho o (by simp [ho'])]
      have := ho o (by simp)
      cases o <;> simp_all [Bracketed]
  intro h
  obtain ⟨r, hr⟩ : ∃ r : List (Op Key Mem V), read_checkpoint zero comps n_patches launch =
      .beginStep :: (getGrid zero launch ++ (getPrts ["mprts"] zero comps ++ .beginStep :: r)) := by
    refine ⟨?_, ?_⟩
    rotate_left
    · unfold read_checkpoint getFlds
      simp only [List.append_assoc, List.cons_append, List.nil_append]
      rfl
  rw [hr] at h
  have h1 := h.2
  rw [hskip (getGrid zero launch) _ true ?_, hskip (getPrts ["mprts"] zero comps) _ true ?_] at h1
  · exact absurd h1.1 (by simp)
  · intro o ho
    simp only [getPrts, getComponent, List.mem_append, List.mem_flatMap, List.mem_cons, List.not_mem_nil, or_false] at ho
    rcases ho with (h | ⟨_, _, h⟩) | h
    · rcases h with rfl | rfl | rfl <;> simp
    · rcases h with rfl | rfl | rfl | rfl <;> simp
    · subst h; simp
  · intro o ho
    simp only [getGrid, getLocal, List.mem_append, List.mem_cons, List.not_mem_nil, or_false] at ho
    rcases ho with (rfl | rfl | rfl | rfl) | h
    · simp
    · simp
    · simp
    · simp
    · rcases h with rfl | rfl | rfl | rfl | rfl | rfl | rfl | rfl | rfl | rfl | rfl | rfl | rfl | rfl <;> simp

end Psc.Props
