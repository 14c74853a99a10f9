import Verif.Lemmas.WallFold
import Verif.Lemmas.Pic
import Verif.Spec.WallPic

/-!
# Where the current of a push goes: at most one cell outside the patch, and within the box of nodes along its own direction
-/

namespace Psc.WallPic

open Domain Ddc FieldStep BndFields Spec

section
variable {K : Type*} [Field K] [LinearOrder K] [IsStrictOrderedRing K] [FloorRing K]

/-- every accumulation satisfies `Q` -/
def EvP (Q : Add K → Prop) (evs : List (Add K)) : Prop := ∀ e ∈ evs, Q e

omit [Field K] [LinearOrder K] [IsStrictOrderedRing K] [FloorRing K] in
theorem EvP.append {Q : Add K → Prop} {a b : List (Add K)} (ha : EvP Q a) (hb : EvP Q b) : EvP Q (a ++ b) :=
  fun e he => (List.mem_append.1 he).elim (ha e) (hb e)

theorem splitDim_ev {lo hi : I3} {Q : Add K → Prop} (invar : Bool) (dim : Fin 3) (next : R3 K → R3 K → List (Add K))
    (hn : ∀ xm xp, PtIn lo hi xm → PtIn lo hi xp → EvP Q (next xm xp)) (xm xp : R3 K) (hm : PtIn lo hi xm)
    (hp : PtIn lo hi xp) : EvP Q (Current1vb.splitDim invar dim next xm xp) := by
  unfold Current1vb.splitDim
  simp only
  split_ifs with h
  · exact hn _ _ hm hp
  · push Not at h
    have h1 := Current1vb.splitX1_in hm hp h.2
    exact (hn _ _ hm h1).append (hn _ _ h1 hp)

theorem oneCell_ev {lo hi : I3} {Q : Add K → Prop} (dep : Current1vb.Dep K)
    (hd : ∀ i qw dx xa, (∀ d, lo d ≤ i d ∧ i d < hi d) → EvP Q (dep i qw dx xa)) (qw : K) (xm xp : R3 K)
    (hm : PtIn lo hi xm) (hp : PtIn lo hi xp) : EvP Q (Current1vb.oneCell dep qw xm xp) := by
  refine hd _ _ _ _ fun d => ?_
  have h := hm.comb hp (t := 1/2) (by norm_num) (by norm_num) d
  have e : xm d + 1/2 * (xp d - xm d) = 1/2 * (xp d + xm d) := by ring
  rw [e] at h
  exact ⟨Int.le_floor.2 h.1, Int.floor_lt.2 h.2⟩

theorem splitZ_ev {lo hi : I3} {Q : Add K → Prop} (invar : Fin 3 → Bool) (dep : Current1vb.Dep K)
    (hd : ∀ i qw dx xa, (∀ d, lo d ≤ i d ∧ i d < hi d) → EvP Q (dep i qw dx xa)) (qw : K) (xm xp : R3 K)
    (hm : PtIn lo hi xm) (hp : PtIn lo hi xp) : EvP Q (Current1vb.splitZ invar dep qw xm xp) :=
  splitDim_ev _ _ _ (splitDim_ev _ _ _ (splitDim_ev _ _ _ (oneCell_ev dep hd qw))) xm xp hm hp

omit [FloorRing K] in
theorem run_ev {lo hi : I3} {Q : Add K → Prop} (cell : I3 → R3 K → R3 K → List (Add K))
    (hc : ∀ i x dx, (lo 1 ≤ i 1 ∧ i 1 < hi 1) → (lo 2 ≤ i 2 ∧ i 2 < hi 2) → EvP Q (cell i x dx)) (idiff : I3)
    (s : CurrentVar1.St K) (h1 : lo 1 ≤ s.i 1 ∧ s.i 1 < hi 1) (h2 : lo 2 ≤ s.i 2 ∧ s.i 2 < hi 2)
    (k1 : lo 1 ≤ s.i 1 + idiff 1 ∧ s.i 1 + idiff 1 < hi 1) (k2 : lo 2 ≤ s.i 2 + idiff 2 ∧ s.i 2 + idiff 2 < hi 2) :
    EvP Q (CurrentVar1.run cell idiff s) := by
  unfold CurrentVar1.run
  simp only
  have nil : EvP Q ([] : List (Add K)) := fun e he => by simp at he
  generalize hfs : CurrentVar1.dirs idiff s.x s.dx = fs
  have hcases : fs = (none, none) ∨ fs = (some 2, none) ∨ fs = (some 1, none) ∨ fs = (some 2, some 1) ∨
      fs = (some 1, some 2) := by
    rw [← hfs]; unfold CurrentVar1.dirs
    simp only
    split_ifs <;> simp
  rcases hcases with h | h | h | h | h <;> subst h <;> simp only [CurrentVar1.segment, CurrentVar1.upd, CurrentVar1.offFor]
  · exact (nil.append nil).append (hc _ _ _ h1 h2)
  · refine ((hc _ _ _ h1 h2).append nil).append (hc _ _ _ ?_ ?_) <;> simp <;> omega
  · refine ((hc _ _ _ h1 h2).append nil).append (hc _ _ _ ?_ ?_) <;> simp <;> omega
  · refine ((hc _ _ _ h1 h2).append (hc _ _ _ ?_ ?_)).append (hc _ _ _ ?_ ?_) <;> simp <;> omega
  · refine ((hc _ _ _ h1 h2).append (hc _ _ _ ?_ ?_)).append (hc _ _ _ ?_ ?_) <;> simp <;> omega

end

/-- the accumulation is where the current of a step may be -/
def InJ (c : Cfg) (inv : Fin 3 → Bool) (e : Add ℝ) : Prop := JIn c inv e.m (Pic.at_ e)

theorem pushAll_ev {cfg : Push.Config} {P : Push.Params} {act : Fin 3 → Bool} (h : Props.GoodStep act P)
    (hact : ∀ d, act d = !(cfg.inv d)) {ldims : I3} {Q : Add ℝ → Prop}
    (hcur : ∀ (qw : ℝ) (v xm xp : R3 ℝ), (∀ d, |v d| < 1) → (∀ d, 0 ≤ xm d ∧ xm d < ldims d) →
      (∀ d, act d = true → |xp d - xm d| < 1) → EvP Q (cfg.current P qw v xm xp))
    (EM : Interp.Fld ℝ) (ps : List Push.Prt) (hp : Props.InPatch ldims P ps) : EvP Q (Push.pushAll cfg P EM ps).2 := by
  have hx : ∀ p ∈ ps, ∀ d, 0 ≤ p.x d * (1 / P.dx d) ∧ p.x d * (1 / P.dx d) < ldims d := by
    intro p hm d
    obtain ⟨a, b⟩ := hp p hm d
    have hd := h.dx_pos d
    refine ⟨mul_nonneg a (by positivity), ?_⟩
    rw [mul_one_div, div_lt_iff₀ hd]; exact b
  clear hp
  induction ps with
  | nil => intro e he; simp [Push.pushAll] at he
  | cons p ps ih =>
    intro e he
    simp only [Push.pushAll, List.mem_append] at he
    rcases he with he | he
    · refine hcur p.qw (Push.calc_v (Push.pushOne cfg P EM p).1.u) (fun d => p.x d * (1 / P.dx d))
        (fun d => (Push.pushOne cfg P EM p).1.x d * (1 / P.dx d)) (Push.calc_v_lt _) (hx p List.mem_cons_self) ?_ e he
      intro d hd
      have hi : cfg.inv d = false := by
        have := hact d; rw [hd] at this; simpa using this.symm
      simp only [Push.pushOne, Push.push_x, hi, Bool.false_eq_true, if_false]
      exact Push.move_short (Push.calc_v_lt _ d) h.dt_pos (h.courant d hd)
    · exact ih (fun p hp => hx p (List.mem_cons_of_mem _ hp)) e he

/-- a move between two points at most a cell outside the patch -/
theorem move_xyz_in (c : Cfg) {P : Push.Params} (qw : ℝ) (v xm xp : R3 ℝ) (hm : ∀ d, -1 ≤ xm d ∧ xm d < c.ldims d + 1)
    (hp : ∀ d, -1 ≤ xp d ∧ xp d < c.ldims d + 1) :
    EvP (InJ c Push.cfgSplit_xyz.inv) (Push.cfgSplit_xyz.current P qw v xm xp) := by
  refine splitZ_ev (lo := fun _ => -1) (hi := fun d => c.ldims d + 1) _ _ (fun i qw dx xa hi => ?_) _ _ _ ?_ ?_
  · have h0 := hi 0; have h1 := hi 1; have h2 := hi 2
    intro e he
    have hinv : ∀ d, Push.cfgSplit_xyz.inv d = false := by intro d; fin_cases d <;> rfl
    simp only [Current1vb.dep_xyz, List.mem_cons, List.not_mem_nil, or_false] at he
    unfold InJ JIn
    rcases he with h | h | h | h | h | h | h | h | h | h | h | h <;> subst h <;> intro d <;>
      refine ⟨fun hd => absurd hd (by rw [hinv]; simp), fun _ => ?_⟩ <;> fin_cases d <;>
      simp [Pic.at_] <;> omega
  · intro d; push_cast; fin_cases d <;> exact hm _
  · intro d; push_cast; fin_cases d <;> exact hp _

theorem current_xyz_in (c : Cfg) {P : Push.Params} (h : Props.GoodStep xyz P) (EM : Interp.Fld ℝ) (ps : List Push.Prt)
    (hp : Props.InPatch c.ldims P ps) :
    EvP (InJ c Push.cfgSplit_xyz.inv) (Push.pushAll Push.cfgSplit_xyz P EM ps).2 := by
  refine pushAll_ev h (by intro d; fin_cases d <;> rfl) (fun qw v xm xp _ hm hs => ?_) EM ps hp
  have hb := fun d : Fin 3 => Props.move_box (hm d) (hs d (by fin_cases d <;> rfl))
  refine move_xyz_in c qw v xm xp (fun d => ?_) fun d => ?_
  · have := hb d; push_cast at this; exact ⟨this.1, this.2.1⟩
  · have := hb d; push_cast at this; exact ⟨this.2.2.1, this.2.2.2⟩

/-- a move between two points at most a cell outside the patch -/
theorem move_yz_in (c : Cfg) {P : Push.Params} (qw : ℝ) (v xm xp : R3 ℝ)
    (hm : ∀ d, yz d = true → -1 ≤ xm d ∧ xm d < c.ldims d + 1) (hp : ∀ d, yz d = true → -1 ≤ xp d ∧ xp d < c.ldims d + 1) :
    EvP (InJ c Push.cfgVar1_yz.inv) (Push.cfgVar1_yz.current P qw v xm xp) := by
  have f : ∀ d, yz d = true → (-1 ≤ ⌊xm d⌋ ∧ ⌊xm d⌋ < c.ldims d + 1) ∧ (-1 ≤ ⌊xp d⌋ ∧ ⌊xp d⌋ < c.ldims d + 1) := by
    intro d hd
    obtain ⟨a1, a2⟩ := hm d hd
    obtain ⟨a3, a4⟩ := hp d hd
    exact ⟨⟨Int.le_floor.2 (by push_cast; exact a1), Int.floor_lt.2 (by push_cast; exact a2)⟩,
      ⟨Int.le_floor.2 (by push_cast; exact a3), Int.floor_lt.2 (by push_cast; exact a4)⟩⟩
  have f1 := f 1 rfl; have f2 := f 2 rfl
  refine run_ev (lo := ![0, -1, -1]) (hi := ![0, c.ldims 1 + 1, c.ldims 2 + 1]) _ (fun i x dx h1 h2 => ?_) _ _ ?_ ?_ ?_ ?_
  · intro e he
    simp only [CurrentVar1.vbCell, List.mem_cons, List.not_mem_nil, or_false] at he
    simp only [Matrix.cons_val_one, Matrix.cons_val] at h1 h2
    unfold InJ JIn
    have i0 : Push.cfgVar1_yz.inv 0 = true := rfl
    have i1 : Push.cfgVar1_yz.inv 1 = false := rfl
    have i2 : Push.cfgVar1_yz.inv 2 = false := rfl
    rcases he with h | h | h | h | h | h | h | h <;> subst h <;> intro d <;> fin_cases d <;>
      simp [Pic.at_, i0, i1, i2] <;> omega
  all_goals simp [CurrentVar1.init]; omega

theorem current_yz_in (c : Cfg) {P : Push.Params} (h : Props.GoodStep yz P) (EM : Interp.Fld ℝ) (ps : List Push.Prt)
    (hp : Props.InPatch c.ldims P ps) :
    EvP (InJ c Push.cfgVar1_yz.inv) (Push.pushAll Push.cfgVar1_yz P EM ps).2 := by
  refine pushAll_ev h (by intro d; fin_cases d <;> rfl) (fun qw v xm xp _ hm hs => ?_) EM ps hp
  refine move_yz_in c qw v xm xp (fun d hd => ?_) fun d hd => ?_
  · have := Props.move_box (hm d) (hs d hd); push_cast at this; exact ⟨this.1, this.2.1⟩
  · have := Props.move_box (hm d) (hs d hd); push_cast at this; exact ⟨this.2.2.1, this.2.2.2⟩

end Psc.WallPic
