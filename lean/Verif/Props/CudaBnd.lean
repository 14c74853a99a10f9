import Verif.Lemmas.CudaBndRun
import Verif.Props.CudaFlds
import Verif.Props.Ddc

/-!
# C74: exchanging ghost cells on the GPU gives what it gives on the CPU
-/

namespace Psc.Props

open Domain Fields Ddc CudaFlds Spec.CudaFlds CudaBnd Spec.CudaBnd

variable {K : Type} [Field K]

/-- the exchanges of a history -/
def callsOf (l : List Op) : List Call := l.filterMap fun o => match o with | .call k => some k | .clear => none

theorem mem_callsOf {l : List Op} {k : Call} : k ∈ callsOf l ↔ Op.call k ∈ l := by
  unfold callsOf
  rw [List.mem_filterMap]
  constructor
  · rintro ⟨o, ho, h⟩
    cases o with
    | call k' => simp only [Option.some.injEq] at h; subst h; exact ho
    | clear => simp at h
  · intro h
    exact ⟨_, h, rfl⟩

/-- **C74, first use.**  When no maps are cached, adding up or filling ghost cells on the GPU gives on every rank what it gives
on the CPU, whatever the decomposition, the fields and the order of threads; filling writes no value twice. -/
theorem C74_exchange (k : Call) (hk : Call.Ok k) (gen : ℕ) : Right K k fun _ => Cache.init gen := by
  refine right_of_fresh hk fun r _ => ?_
  obtain ⟨h', h1, -⟩ := getMaps_inv (P := fun k' => k' = k) (r := r) hk rfl (fun _ h _ _ _ => h)
    (h := Cache.init gen) (by intro add x hx; cases add <;> simp [Cache.init] at hx)
  exact ⟨h', h1⟩

/-- **C74, full statement.**  After any history of exchanges and redistributions, in which the patches only change together with
the generation, every exchange gives on every rank what it gives on the CPU. -/
def C74_full (K : Type) [Field K] : Prop :=
  ∀ (gen : ℕ) (l : List Op) (k : Call), (∀ k' ∈ k :: callsOf l, Call.Ok k') →
    (∀ k' ∈ k :: callsOf l, ∀ k'' ∈ k :: callsOf l, k'.gen = k''.gen → k'.c = k''.c) →
    ∃ hs, (∀ r < k.c.D.counts.length, after r gen l = some (hs r)) ∧ Right K k hs

/-- **C74, partial.**  The full statement holds for fields of fewer than 100 components, of which those with equally many
components also have equally many ghost points.
Missing: other fields, for which it is false (`C74_key_violated`, `C74_ghosts_violated`). -/
theorem C74_history_partial (gen : ℕ) (l : List Op) (k : Call) (hok : ∀ k' ∈ k :: callsOf l, Call.Ok k')
    (hgen : ∀ k' ∈ k :: callsOf l, ∀ k'' ∈ k :: callsOf l, k'.gen = k''.gen → k'.c = k''.c)
    (hnc : ∀ k' ∈ k :: callsOf l, k'.nc < 100)
    (hibn : ∀ k' ∈ k :: callsOf l, ∀ k'' ∈ k :: callsOf l, k'.gen = k''.gen → k'.nc = k''.nc → k'.ibn = k''.ibn) :
    ∃ hs, (∀ r < k.c.D.counts.length, after r gen l = some (hs r)) ∧ Right K k hs := by
  have same : ∀ k1 ∈ k :: callsOf l, ∀ k2, k2 ∈ k :: callsOf l → k2.add = k1.add → k2.gen = k1.gen → k2.key = k1.key → k2 = k1 := by
    intro k1 h1 k2 h2 ha hg hkey
    have a1 := (hok k1 h1).comps; have a2 := (hok k2 h2).comps
    have b1 := hnc k1 h1; have b2 := hnc k2 h2
    have c := hgen k2 h2 k1 h1 hg
    have d := hibn k2 h2 k1 h1 hg
    unfold Call.key at hkey
    have e1 : k2.nc = k1.nc := by omega
    have e2 : k2.me = k1.me := by omega
    have e3 : k2.mb = k1.mb := by omega
    have d' := d e1
    clear d
    cases k1; cases k2
    simp only at ha hg e1 e2 e3 c d'
    subst ha hg e1 e2 e3 c d'
    rfl
  have hafter : ∀ r, ∃ h, after r gen l = some h ∧ Inv (· ∈ k :: callsOf l) r h := fun r =>
    after_inv r gen l fun k' hk' =>
      have hm : k' ∈ k :: callsOf l := List.mem_cons_of_mem _ (mem_callsOf.2 hk')
      ⟨hok k' hm, hm, same k' hm⟩
  choose hs h1 h2 using hafter
  refine ⟨hs, fun r _ => h1 r, right_of_fresh (hok k List.mem_cons_self) fun r _ => ?_⟩
  obtain ⟨h', h3, -⟩ := getMaps_inv (hok k List.mem_cons_self) List.mem_cons_self (same k List.mem_cons_self) (h2 r)
  exact ⟨h', h3⟩

/-! ## Examples -/

/-- currents of all patches of two ranks -/
def gpuBndAdd : Call := ⟨true, exCfg, ![2, 2, 0], 9, 0, 3, 1⟩
/-- electric field -/
def gpuBndFill : Call := ⟨false, exCfg, ![2, 2, 0], 9, 3, 6, 1⟩
/-- after the patches have been redistributed -/
def gpuBndLater : Call := ⟨false, ⟨⟨![2, 2, 1], ![true, false, false], .bydim, [2, 2]⟩, ![3, 4, 1], ![2, 2, 0]⟩, ![2, 2, 0], 9, 3, 6, 2⟩

theorem nr_patches_le (D : Decomp) (r : ℕ) : D.nr_patches r ≤ D.counts.sum := by
  have h : D.nr_patches r = D.counts.getD r 0 := by
    show gpatch_off_all D.counts r + D.counts.getD r 0 - gpatch_off_all D.counts r = _
    omega
  rw [h, List.getD_eq_getElem?_getD]
  cases hr : D.counts[r]? with
  | none => simp
  | some a => exact List.le_sum_of_mem (List.mem_of_getElem? hr)

theorem gpuBnd_size (k : Call) (h : k.layout 0 = ⟨k.c.ldims, k.ibn, k.nc, k.c.D.nr_patches 0⟩)
    (hb : (k.layout 0).im 0 * ((k.layout 0).im 1 * ((k.layout 0).im 2 * (k.nc * k.c.D.counts.sum))) ≤ 2 ^ 32) (r : ℕ) :
    (k.layout r).size ≤ 2 ^ 32 := by
  refine le_trans ?_ hb
  have := nr_patches_le k.c.D r
  show (k.layout r).im 0 * ((k.layout r).im 1 * ((k.layout r).im 2 * (k.nc * k.c.D.nr_patches r))) ≤ _
  exact Nat.mul_le_mul_left _ (Nat.mul_le_mul_left _ (Nat.mul_le_mul_left _ (Nat.mul_le_mul_left _ this)))

theorem gpuBndAdd_ok : Call.Ok gpuBndAdd := ⟨exCfg_ok, by decide, fun d => le_refl _, gpuBnd_size _ rfl (by decide +kernel)⟩
theorem gpuBndFill_ok : Call.Ok gpuBndFill := ⟨exCfg_ok, by decide, fun d => le_refl _, gpuBnd_size _ rfl (by decide +kernel)⟩
theorem gpuBndLater_ok : Call.Ok gpuBndLater :=
  ⟨⟨⟨rfl, by decide⟩, by decide⟩, by decide, fun d => le_refl _, gpuBnd_size _ rfl (by decide +kernel)⟩

/-- a history with repeated exchanges and a redistribution -/
def gpuBndHist : List Op := [.call gpuBndAdd, .call gpuBndFill, .call gpuBndAdd, .clear, .call gpuBndLater, .call gpuBndLater]

example : (∀ k' ∈ gpuBndLater :: callsOf gpuBndHist, Call.Ok k') ∧
    (∀ k' ∈ gpuBndLater :: callsOf gpuBndHist, k'.nc < 100) ∧
    ∀ k' ∈ gpuBndLater :: callsOf gpuBndHist, ∀ k'' ∈ gpuBndLater :: callsOf gpuBndHist, k'.gen = k''.gen →
      k'.c = k''.c ∧ k'.ibn = k''.ibn := by
  have hc : callsOf gpuBndHist = [gpuBndAdd, gpuBndFill, gpuBndAdd, gpuBndLater, gpuBndLater] := rfl
  rw [hc]
  simp only [List.forall_mem_cons, List.not_mem_nil, IsEmpty.forall_iff, implies_true, and_true]
  refine ⟨⟨gpuBndLater_ok, gpuBndAdd_ok, gpuBndFill_ok, gpuBndAdd_ok, gpuBndLater_ok, gpuBndLater_ok⟩, ?_, ?_⟩
  · decide
  · simp [gpuBndLater, gpuBndAdd, gpuBndFill]

/-! ## Violations -/

theorem mapM_congr' {α β : Type} (l : List α) (f g : α → Option β) (h : ∀ a ∈ l, f a = g a) : l.mapM f = l.mapM g := by
  induction l with
  | nil => rfl
  | cons a l ih => rw [List.mapM_cons, List.mapM_cons, h a List.mem_cons_self, ih fun b hb => h b (List.mem_cons_of_mem _ hb)]

/-- what an exchange on a single rank that is right implies -/
theorem gpuBnd_check {k : Call} {hs : ℕ → Cache} (hone : k.c.D.counts.length = 1) (hR : Right ℚ k hs)
    (hsz : (getMaps k 0 (hs 0)).map (fun m => m.1.patt.size) = some 1) (S : RankState ℚ) (p m : ℕ) (n : Fin 3 → ℕ)
    (hp : p < (k.layout 0).np) (hm : m < k.nc) (hn : ∀ d, (n d : ℤ) < k.c.ldims d + 2 * k.ibn d) :
    ((getMaps k 0 (hs 0)).bind fun mc => (writes (fun _ => mc.1) (fun _ => gpuMem (k.layout 0) S) 0).bind fun w =>
      ((scatter (upd k) w.1 (gpuMem (k.layout 0) S)).bind (scatter (upd k) w.2)).bind fun M =>
        M[n 0 + (k.layout 0).im 0 * (n 1 + (k.layout 0).im 1 * (n 2 + (k.layout 0).im 2 * (m + k.nc * p)))]?) =
    (cpu k (fun _ => S) 0).map fun S' => S' p (m, fun d => n d - k.ibn d) := by
  obtain ⟨ms, h1, ⟨w, hw, -⟩, S', hS', ho⟩ := hR (fun _ => S) (fun _ => gpuMem (k.layout 0) S) (by
    intro r hr
    rw [hone, Nat.lt_one_iff] at hr
    subst hr
    exact gpuMem_stores _ _) 0 (by omega)
  obtain ⟨h', h1⟩ := h1 0 (by omega)
  rw [h1, Option.map_some, Option.some.injEq] at hsz
  have hw' : writes (fun _ => ms 0) (fun _ => gpuMem (k.layout 0) S) 0 = writes ms (fun _ => gpuMem (k.layout 0) S) 0 := by
    unfold writes
    have : (List.range (ms 0).patt.size).mapM (fun r => messages (ms 0) (gpuMem (k.layout 0) S)) =
        (List.range (ms 0).patt.size).mapM (fun r => messages (ms r) (gpuMem (k.layout 0) S)) := by
      rw [hsz]
      refine mapM_congr' _ _ _ fun r hr => ?_
      have hr := List.mem_range.1 hr
      rw [Nat.lt_one_iff] at hr
      rw [hr]
    simp only [this]
  rw [h1, Option.bind_some, hw', hw, Option.bind_some, hS', Option.map_some]
  rw [hw] at ho
  obtain ⟨M', e, -, hM'⟩ := ho _ ⟨w.1, w.2, List.Perm.refl _, List.Perm.refl _, rfl⟩
  rw [e, Option.bind_some]
  exact hM' p hp m hm n hn

/-- one patch, periodic in x -/
def gpuBndCfg : Cfg := ⟨⟨![1, 1, 1], ![true, false, false], .bydim, [1]⟩, ![2, 1, 1], ![1, 0, 0]⟩
theorem gpuBndCfg_ok : gpuBndCfg.Ok := ⟨⟨rfl, by decide⟩, by decide⟩

/-- one component of many -/
def gpuBndOne : Call := ⟨false, gpuBndCfg, ![1, 0, 0], 102, 100, 101, 1⟩
/-- all of them -/
def gpuBndMany : Call := ⟨false, gpuBndCfg, ![1, 0, 0], 102, 0, 102, 1⟩
theorem gpuBndOne_ok : Call.Ok gpuBndOne := ⟨gpuBndCfg_ok, by decide, fun d => le_refl _, gpuBnd_size _ rfl (by decide +kernel)⟩
theorem gpuBndMany_ok : Call.Ok gpuBndMany := ⟨gpuBndCfg_ok, by decide, fun d => le_refl _, gpuBnd_size _ rfl (by decide +kernel)⟩

/-- **C74, violated by the code.**  The maps of components [100, 101) and [0, 102) of a field of 102 components are cached with the
same key: exchanging the first and then all leaves the ghost cells of the others as they were. -/
theorem C74_key_violated : gpuBndOne.key = gpuBndMany.key ∧ ∃ h, after 0 1 [.call gpuBndOne] = some h ∧
    ∀ hs : ℕ → Cache, hs 0 = h → ¬Right ℚ gpuBndMany hs := by
  refine ⟨by decide, ((after 0 1 [.call gpuBndOne]).getD (Cache.init 0)), ?_, ?_⟩
  · have : (after 0 1 [.call gpuBndOne]).isSome := by decide +kernel
    obtain ⟨a, ha⟩ := Option.isSome_iff_exists.1 this
    rw [ha]; rfl
  · intro hs h0 hR
    have := gpuBnd_check rfl hR (by rw [h0]; decide +kernel) (fun _ mn => mn.2 0) 0 0 (fun _ => 0) (by decide) (by decide) (by decide)
    rw [h0] at this
    revert this
    decide +kernel

/-- a field with one layer of ghost points -/
def gpuBndThin : Call := ⟨false, gpuBndCfg, ![1, 0, 0], 1, 0, 1, 1⟩
/-- a field with two -/
def gpuBndThick : Call := ⟨false, gpuBndCfg, ![2, 0, 0], 1, 0, 1, 1⟩
theorem gpuBndThin_ok : Call.Ok gpuBndThin := ⟨gpuBndCfg_ok, by decide, fun d => le_refl _, gpuBnd_size _ rfl (by decide +kernel)⟩
theorem gpuBndThick_ok : Call.Ok gpuBndThick := ⟨gpuBndCfg_ok, by decide, by decide, gpuBnd_size _ rfl (by decide +kernel)⟩

/-- **C74, violated by the code.**  The number of ghost points is not part of the key: filling a field with one layer of ghost
points and then one with two, of equally many components, moves the wrong values of the second. -/
theorem C74_ghosts_violated : gpuBndThin.key = gpuBndThick.key ∧ ∃ h, after 0 1 [.call gpuBndThin] = some h ∧
    ∀ hs : ℕ → Cache, hs 0 = h → ¬Right ℚ gpuBndThick hs := by
  refine ⟨by decide, ((after 0 1 [.call gpuBndThin]).getD (Cache.init 0)), ?_, ?_⟩
  · have : (after 0 1 [.call gpuBndThin]).isSome := by decide +kernel
    obtain ⟨a, ha⟩ := Option.isSome_iff_exists.1 this
    rw [ha]; rfl
  · intro hs h0 hR
    have := gpuBnd_check rfl hR (by rw [h0]; decide +kernel) (fun _ mn => mn.2 0) 0 0 (fun d => if d = 0 then 1 else 0) (by decide) (by decide)
      (by decide)
    rw [h0] at this
    revert this
    decide +kernel

/-- the full statement is false -/
theorem C74_violated : ¬C74_full ℚ := by
  intro h
  obtain ⟨-, h0, e, hw⟩ := C74_ghosts_violated
  obtain ⟨hs, h1, h2⟩ := h 1 [.call gpuBndThin] gpuBndThick
    (by simp only [callsOf, List.filterMap_cons, List.filterMap_nil, List.forall_mem_cons, List.not_mem_nil, IsEmpty.forall_iff,
          implies_true, and_true]; exact ⟨gpuBndThick_ok, gpuBndThin_ok⟩)
    (by simp [callsOf, gpuBndThin, gpuBndThick])
  exact hw hs (Option.some.inj ((h1 0 (by decide)).symm.trans e)) h2

end Psc.Props
