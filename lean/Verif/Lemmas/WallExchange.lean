import Verif.Lemmas.WallRho
import Verif.Lemmas.BndWall

/-!
# The exchange of particles at walls, open and periodic boundaries keeps the charge density
-/

namespace Psc.WallPic

open Domain Ddc FieldStep BndFields Spec Pic

noncomputable section

theorem W_map {L L' : List (Add ℝ)} {m : Fin 3} (A : I3 → I3) (hA : Function.Bijective A)
    (h : ∀ n : I3, fieldOf L' m (A n 0) (A n 1) (A n 2) = fieldOf L m (n 0) (n 1) (n 2)) (g : I3 → ℝ) :
    W L' m g = W L m (fun n => g (A n)) := by
  classical
  let B := Function.surjInv hA.2
  let T : Finset I3 := (L.map at_).toFinset ∪ (L'.map fun e => B (at_ e)).toFinset
  rw [← Pic.sum_fieldOf L m (fun n => g (A n)) T, ← Pic.sum_fieldOf L' m g (T.image A), Finset.sum_image]
  · exact Finset.sum_congr rfl fun n _ => by rw [h]
  · intro a _ b _ e; exact hA.1 e
  · intro e he _
    refine Finset.mem_image.2 ⟨B (at_ e), Finset.mem_union_right _ (List.mem_toFinset.2 (List.mem_map.2 ⟨e, he, rfl⟩)), ?_⟩
    exact Function.surjInv_eq hA.2 _
  · intro e he _
    exact Finset.mem_union_left _ (List.mem_toFinset.2 (List.mem_map_of_mem he))

theorem tent_neg (s : ℝ) : tent (-s) = tent s := by unfold tent; rw [abs_neg]

theorem tentRho_affine (act : Fin 3 → Bool) (z z' : R3 ℝ) (σ t n : I3) (hσ : ∀ d, σ d = 1 ∨ σ d = -1)
    (hi : ∀ d, act d = false → σ d = 1 ∧ t d = 0) (hz : ∀ d, act d = true → z' d = σ d * z d + t d) :
    tentRho act 1 z' (σ 0 * n 0 + t 0) (σ 1 * n 1 + t 1) (σ 2 * n 2 + t 2) = tentRho act 1 z (n 0) (n 1) (n 2) := by
  have key : ∀ d : Fin 3, (if act d then tent (z' d - ((σ d * n d + t d : ℤ) : ℝ)) else if σ d * n d + t d = 0 then 1 else 0) =
      if act d then tent (z d - n d) else if n d = 0 then (1 : ℝ) else 0 := by
    intro d
    cases hd : act d
    · obtain ⟨a, b⟩ := hi d hd
      rw [a, b]; simp
    · simp only [if_true]
      rw [hz d hd]
      rcases hσ d with h | h
      · rw [h]; push_cast; congr 1; ring
      · rw [h, ← tent_neg]; push_cast; congr 1; ring
  unfold tentRho
  rw [key 0, key 1, key 2]

theorem share_affine {S : Setup} (hS : Sound S) (z z' : R3 ℝ) (σ t n : I3) (hσ : ∀ d, σ d = 1 ∨ σ d = -1)
    (hi : ∀ d, S.cfg.inv d = true → σ d = 1 ∧ t d = 0) (hz : ∀ d, S.cfg.inv d = false → z' d = σ d * z d + t d) :
    S.code.share z' (fun d => σ d * n d + t d) = S.code.share z n := by
  have a1 : ∀ d, S.code.act d = false → σ d = 1 ∧ t d = 0 := fun d hd => hi d (by rw [hS.act] at hd; simpa using hd)
  have a2 : ∀ d, S.code.act d = true → z' d = σ d * z d + t d := fun d hd => hz d (by rw [hS.act] at hd; simpa using hd)
  have key := tentRho_affine S.code.act z z' σ t n hσ a1 a2
  rcases hS.nc with hc | hc <;> rw [hc] at key ⊢ <;> exact key

/-- the node of the domain a node belongs to, in one direction -/
def fold1 (S : Setup) (d : Fin 3) (n : ℤ) : ℤ :=
  if S.c.D.bc d then n % S.c.gdims d
  else Reflecting.mirrorNC (S.c.gdims d) (S.prt_lo d == .reflecting) (S.prt_hi d == .reflecting) n

theorem foldI_eq {S : Setup} (hS : Sound S) (n : I3) : S.grid.foldI S.code n = fun d => fold1 S d (n d) := by
  have hcc : S.code.isCC = false := by rcases hS.nc with e | e <;> rw [e] <;> rfl
  funext d
  unfold Moments.Grid.foldI fold1
  rw [hcc]
  simp only [Bool.false_eq_true, if_false]
  rfl

/-- A particle whose position is moved by whole domain lengths or mirrored, such that the nodes around it keep belonging to
the same nodes of the domain, contributes the same. -/
theorem gw_affine {S : Setup} (hS : Sound S) (x : I3) {rp rp' : ℕ × ℕ} {q q' : Push.Prt} (hw : q'.qw = q.qw)
    (hk : q'.kind = q.kind) (h : ∀ d, ∃ σ t : ℤ, (σ = 1 ∨ σ = -1) ∧ (S.cfg.inv d = true → σ = 1 ∧ t = 0) ∧
      (S.cfg.inv d = false → gz S rp' q' d = σ * gz S rp q d + t ∧
        ∀ n, n = ⌊gz S rp q d⌋ ∨ n = ⌊gz S rp q d⌋ + 1 → fold1 S d (σ * n + t) = fold1 S d n)) :
    gw S x rp' q' = gw S x rp q := by
  choose σ t hσ hi ha using h
  unfold gw
  have e1 : Push.charge S.P q' = Push.charge S.P q := by unfold Push.charge; rw [hw, hk]
  rw [e1]
  let A : I3 → I3 := fun n d => σ d * n d + t d
  have hA : Function.Bijective A := by
    have hss : ∀ d, σ d * σ d = 1 := by intro d; rcases hσ d with h | h <;> rw [h] <;> rfl
    refine Function.bijective_iff_has_inverse.2 ⟨fun n d => σ d * (n d - t d), fun n => ?_, fun n => ?_⟩
    · funext d
      show σ d * (σ d * n d + t d - t d) = n d
      linear_combination n d * hss d
    · funext d
      show σ d * (σ d * (n d - t d)) + t d = n d
      linear_combination (n d - t d) * hss d
  rw [W_map (L := S.code.dep (gz S rp q) (S.P.fnqs * Push.charge S.P q)) A hA]
  · unfold W
    refine congrArg List.sum (List.map_congr_left fun e he => ?_)
    have : phi S x (A (at_ e)) = phi S x (at_ e) := by
      unfold phi
      rw [foldI_eq hS, foldI_eq hS]
      have : (fun d => fold1 S d (A (at_ e) d)) = fun d => fold1 S d (at_ e d) := by
        funext d
        obtain ⟨a, b⟩ := dep_at hS _ _ e he d
        cases hd : S.cfg.inv d
        · exact (ha d hd).2 _ (a hd)
        · show fold1 S d (σ d * at_ e d + t d) = _
          rw [(hi d hd).1, (hi d hd).2, one_mul, add_zero]
      rw [this]
    beta_reduce
    rw [this]
  · intro n
    have e2 := Moments.dep_share S.code (gz S rp' q') (S.P.fnqs * Push.charge S.P q) (A n)
    rw [e2, Moments.dep_share]
    rw [share_affine hS (gz S rp q) (gz S rp' q') σ t n hσ hi fun d hd => (ha d hd).1]

/-- The exchange puts a particle exactly on an upper reflecting wall a little below it. -/
def nudge (S : Setup) (rp : ℕ × ℕ) (q : Push.Prt) : Push.Prt :=
  { q with x := fun d => if S.prt_hi d = .reflecting ∧ S.c.off rp.1 rp.2 d * S.P.dx d + q.x d = S.c.gdims d * S.P.dx d then
      S.c.ldims d * S.P.dx d * (1 - 1 / 1000000) else q.x d }

/-- no particle is exactly on an upper reflecting wall -/
def NoneOnWall (S : Setup) (prts : ℕ → ℕ → List Push.Prt) : Prop :=
  ∀ r p, S.c.D.Has r p → ∀ q ∈ prts r p, ∀ d, S.prt_hi d = .reflecting →
    S.c.off r p d * S.P.dx d + q.x d ≠ S.c.gdims d * S.P.dx d

theorem nudge_eq {S : Setup} {r p : ℕ} {q : Push.Prt}
    (h : ∀ d, S.prt_hi d = .reflecting → S.c.off r p d * S.P.dx d + q.x d ≠ S.c.gdims d * S.P.dx d) : nudge S (r, p) q = q := by
  unfold nudge
  have : (fun d => if S.prt_hi d = .reflecting ∧ S.c.off r p d * S.P.dx d + q.x d = S.c.gdims d * S.P.dx d then
      S.c.ldims d * S.P.dx d * (1 - 1 / 1000000) else q.x d) = q.x := by
    funext d
    rw [if_neg]
    rintro ⟨a, b⟩
    exact h d a b
  simp only [this]

theorem nudge_inside {S : Setup} (hF : Fit S) {r p : ℕ} (hh : S.c.D.Has r p) {q : Push.Prt}
    (h : ∀ d, q.x d < S.c.ldims d * S.P.dx d) : nudge S (r, p) q = q := by
  refine nudge_eq fun d hd e => ?_
  have := h d
  have o := (BndFields.off_range (hF.fitsB none) hh d).2
  have o' : (S.c.off r p d : ℝ) + S.c.ldims d ≤ S.c.gdims d := by exact_mod_cast o
  nlinarith [mul_le_mul_of_nonneg_right o' (hF.dx d).le]

/-- particles that stay or move on are inside their patch afterwards -/
theorem fate_inside {g : Bndp.PatchP ℝ} (hg : g.Ok) {b b' : Bndp.Prt ℝ (ℝ × ℕ)} (hn : Bndp.Near g b.x) {dir : I3}
    (h : Bndp.process1 g b = some (.send dir b') ∨ Bndp.process1 g b = some (.keep b')) (d : Fin 3) : b'.x d < g.size d := by
  have e : b'.x = Bndp.newX g b.x := by
    rw [Bndp.process1_eq hg hn] at h
    unfold Bndp.fate at h
    by_cases h1 : Bndp.Leaves g b.x
    · simp [h1] at h
    · by_cases h2 : IsZero (Bndp.newDir g b.x)
      · simp [h1, h2] at h; rw [← h]
      · simp [h1, h2] at h; rw [← h.2]
  rw [e]
  exact (Bndp.newX_mem hg hn d).2

/-- what the exchange does to a particle that stays in the domain -/
theorem gw_fate {S : Setup} (hF : Fit S) (hS : Sound S) {r p r' p' : ℕ} (hh : S.c.D.Has r p) {q q' : Push.Prt}
    (hn : ∀ d, -S.P.dx d < q.x d ∧ q.x d < (S.c.ldims d + 1) * S.P.dx d)
    (dir : I3) (hw : q'.qw = q.qw) (hk : q'.kind = q.kind)
    (h17 : ∀ d, (¬ Bndp.HitLo (S.pic.ex.patch r p) q.x d → ¬ Bndp.HitHi (S.pic.ex.patch r p) q.x d →
        q'.x d + dir d * (S.c.ldims d * S.P.dx d) = q.x d) ∧
      (Bndp.HitLo (S.pic.ex.patch r p) q.x d → dir d = 0 ∧ q'.x d = -q.x d) ∧
      (Bndp.HitHi (S.pic.ex.patch r p) q.x d → dir d = 0 ∧
        q'.x d = if q.x d = S.c.ldims d * S.P.dx d then S.c.ldims d * S.P.dx d * (1 - 1 / 1000000)
          else 2 * (S.c.ldims d * S.P.dx d) - q.x d))
    (hidx : ∀ d, ∃ k : ℤ, (S.c.D.bc d = false → k = 0) ∧ S.c.off r' p' d = S.c.off r p d + dir d * S.c.ldims d + k * S.c.gdims d)
    (x : I3) : gw S x (r', p') q' = gw S x (r, p) (nudge S (r, p) q) := by
  refine gw_affine hS x (q := nudge S (r, p) q) hw hk fun d => ?_
  cases hi : S.cfg.inv d with
  | true => exact ⟨1, 0, Or.inl rfl, fun _ => ⟨rfl, rfl⟩, fun h => absurd h (by decide)⟩
  | false =>
    have hd := hF.dx d
    have hg := hF.gdims d hi
    have hfl := near_floor hF (hn d)
    obtain ⟨k, hk0, hk⟩ := hidx d
    by_cases hex : S.prt_hi d = .reflecting ∧ S.c.off r p d * S.P.dx d + q.x d = S.c.gdims d * S.P.dx d
    · -- exactly on the wall
      have hoc := (Moments.off_cases (hF.ok hS) (show S.grid.c.D.Has r p from hh) d).2
      change S.c.off r p d + S.c.ldims d = S.c.gdims d ∨ S.c.off r p d + 2 * S.c.ldims d ≤ S.c.gdims d at hoc
      have hb : S.c.D.bc d = false := by
        rcases (hF.act d hi).2.2 with ⟨-, ⟨-, a⟩, -⟩ | ⟨a, -⟩
        · rw [hex.1] at a; cases a
        · exact a
      have hhi : S.c.off r p d + S.c.ldims d = S.c.gdims d := by
        rcases hoc with h | h
        · exact h
        · exfalso
          have h' : (S.c.off r p d : ℝ) + 2 * S.c.ldims d ≤ S.c.gdims d := by exact_mod_cast h
          have hL : (1 : ℝ) ≤ S.c.ldims d := by exact_mod_cast hF.pos d
          have := (hn d).2
          have := hex.2
          nlinarith [mul_le_mul_of_nonneg_right h' hd.le, mul_le_mul_of_nonneg_right hL hd.le]
      have hxe : q.x d = S.c.ldims d * S.P.dx d := by
        have := hex.2
        rw [← hhi] at this
        push_cast at this
        linarith
      have hhit : Bndp.HitHi (S.pic.ex.patch r p) q.x d := ⟨le_of_eq hxe.symm, decide_eq_true hhi, hex.1⟩
      obtain ⟨hdir, hx'⟩ := (h17 d).2.2 hhit
      rw [if_pos hxe] at hx'
      rw [hk0 hb, hdir] at hk
      simp only [zero_mul, add_zero] at hk
      refine ⟨1, 0, Or.inl rfl, fun h => absurd h (by decide), fun _ => ⟨?_, fun n _ => by simp⟩⟩
      unfold gz nudge
      simp only [hk, hx', if_pos hex]
      push_cast; ring
    have hnx : (nudge S (r, p) q).x d = q.x d := if_neg hex
    have egz : gz S (r, p) (nudge S (r, p) q) d = gz S (r, p) q d := by unfold gz; rw [hnx]
    rw [egz]
    have how : S.prt_hi d = .reflecting → S.c.off r p d * S.P.dx d + q.x d ≠ S.c.gdims d * S.P.dx d := fun a b => hex ⟨a, b⟩
    have ez : ⌊gz S (r, p) q d⌋ = ⌊q.x d * (1 / S.P.dx d)⌋ + S.c.off r p d := by
      unfold gz; rw [Int.floor_add_intCast]
    have bcf : S.prt_lo d = .reflecting ∨ S.prt_hi d = .reflecting → S.c.D.bc d = false := by
      intro h
      rcases (hF.act d hi).2.2 with ⟨-, ⟨a, b⟩, -⟩ | ⟨a, -⟩
      · rw [a, b] at h; rcases h with h | h <;> exact absurd h (by decide)
      · exact a
    by_cases h1 : Bndp.HitLo (S.pic.ex.patch r p) q.x d
    · obtain ⟨hx, hlo, href⟩ := h1
      obtain ⟨hdir, hx'⟩ := (h17 d).2.1 ⟨hx, hlo, href⟩
      have hlo : S.c.off r p d = 0 := by simpa [Bndp.ExchP.patch, Setup.pic, Pic.Setup.ex, Cfg.off] using hlo
      have href : S.prt_lo d = .reflecting := href
      have hb := bcf (Or.inl href)
      rw [hk0 hb, hdir, hlo] at hk
      simp only [zero_mul, add_zero] at hk
      refine ⟨-1, 0, Or.inr rfl, fun h => absurd h (by decide), fun _ => ⟨?_, ?_⟩⟩
      · unfold gz
        simp only [hk, hx', hlo]
        push_cast; ring
      · have f1 : ⌊q.x d * (1 / S.P.dx d)⌋ < 0 := by
          rw [Int.floor_lt, mul_one_div, div_lt_iff₀ hd]; push_cast; linarith
        intro n hn
        rw [ez, hlo] at hn
        unfold fold1 Reflecting.mirrorNC
        rw [hb, href]
        simp only [Bool.false_eq_true, if_false, beq_self_eq_true, true_and]
        have : n = -1 ∨ n = 0 := by omega
        rcases this with rfl | rfl
        · rw [if_neg (by omega), if_neg (by omega), if_pos (by omega)]; omega
        · rfl
    · by_cases h2 : Bndp.HitHi (S.pic.ex.patch r p) q.x d
      · obtain ⟨hx, hlo, href⟩ := h2
        obtain ⟨hdir, hx'⟩ := (h17 d).2.2 ⟨hx, hlo, href⟩
        have hhi : S.c.off r p d + S.c.ldims d = S.c.gdims d := of_decide_eq_true hlo
        have href : S.prt_hi d = .reflecting := href
        have hx : S.c.ldims d * S.P.dx d ≤ q.x d := hx
        have hb := bcf (Or.inr href)
        have hne : q.x d ≠ S.c.ldims d * S.P.dx d := by
          intro e
          apply how href
          rw [e, ← hhi]; push_cast; ring
        rw [if_neg hne] at hx'
        rw [hk0 hb, hdir] at hk
        simp only [zero_mul, add_zero] at hk
        refine ⟨-1, 2 * S.c.gdims d, Or.inr rfl, fun h => absurd h (by decide), fun _ => ⟨?_, ?_⟩⟩
        · unfold gz
          simp only [hk, hx', ← hhi]
          push_cast
          field_simp
          ring
        · have f1 : S.c.ldims d ≤ ⌊q.x d * (1 / S.P.dx d)⌋ := by
            rw [Int.le_floor, mul_one_div, le_div_iff₀ hd]; exact hx
          intro n hn
          rw [ez] at hn
          unfold fold1 Reflecting.mirrorNC
          rw [hb, href]
          simp only [Bool.false_eq_true, if_false, beq_self_eq_true, true_and]
          have : n = S.c.gdims d ∨ n = S.c.gdims d + 1 := by omega
          cases (S.prt_lo d == .reflecting) <;> simp only [true_and, false_and, Bool.false_eq_true, if_false] <;>
            rcases this with rfl | rfl <;> split_ifs <;> omega
      · have hx' := (h17 d).1 h1 h2
        refine ⟨1, k * S.c.gdims d, Or.inl rfl, fun h => absurd h (by decide), fun _ => ⟨?_, ?_⟩⟩
        · unfold gz
          simp only [hk, ← hx']
          push_cast
          field_simp
          ring
        · intro n _
          unfold fold1
          cases hb : S.c.D.bc d
          · rw [hk0 hb]; simp
          · simp only [if_true, one_mul]
            rw [Int.add_mul_emod_self_right]

/-- a particle that leaves through an open boundary does not contribute, except at the nodes on lower open boundaries -/
theorem gw_leave {S : Setup} (hF : Fit S) (hS : Sound S) {r p : ℕ} (hh : S.c.D.Has r p) {q : Push.Prt}
    (hn : ∀ d, (-S.P.dx d < q.x d ∧ q.x d < (S.c.ldims d + 1) * S.P.dx d) ∧
      (S.cfg.inv d = true → 0 ≤ q.x d ∧ q.x d < S.c.ldims d * S.P.dx d))
    (hl : Bndp.Leaves (S.pic.ex.patch r p) q.x) {x : I3} (hx : ∀ d, x d < S.c.gdims d)
    (hx0 : ∀ d, S.cfg.inv d = false → S.fld_lo d = .open → 1 ≤ x d) : gw S x (r, p) (nudge S (r, p) q) = 0 := by
  obtain ⟨d, hd⟩ := hl
  have hdx := hF.dx d
  have hnx : (nudge S (r, p) q).x d = q.x d := by
    refine if_neg ?_
    rintro ⟨e1, e2⟩
    rcases hd with ⟨a, -⟩ | ⟨-, -, a⟩
    · have o := (BndFields.off_range (hF.fitsB none) hh d).2
      have o' : (S.c.off r p d : ℝ) + S.c.ldims d ≤ S.c.gdims d := by exact_mod_cast o
      have hL : (1 : ℝ) ≤ S.c.ldims d := by exact_mod_cast hF.pos d
      nlinarith [mul_le_mul_of_nonneg_right o' hdx.le, mul_le_mul_of_nonneg_right hL hdx.le]
    · change Bndp.Removes (S.prt_hi d) at a
      rw [e1] at a
      rcases a with a | a <;> cases a
  have egz : gz S (r, p) (nudge S (r, p) q) d = gz S (r, p) q d := by unfold gz; rw [hnx]
  have hi : S.cfg.inv d = false := by
    cases hi : S.cfg.inv d with
    | false => rfl
    | true =>
      have := (hn d).2 hi
      rcases hd with ⟨a, -⟩ | ⟨a, -⟩
      · exact absurd a (not_lt.2 this.1)
      · exact absurd this.2 (not_lt.2 a)
  have hg := hF.gdims d hi
  have hfl := near_floor hF (hn d).1
  have ez : ⌊gz S (r, p) q d⌋ = ⌊q.x d * (1 / S.P.dx d)⌋ + S.c.off r p d := by
    unfold gz; rw [Int.floor_add_intCast]
  unfold gw W
  apply List.sum_eq_zero
  intro v hv
  obtain ⟨e, he, rfl⟩ := List.mem_map.1 hv
  have hat := (dep_at hS _ _ e he d).1 hi
  rw [egz] at hat
  have : phi S x (at_ e) = 0 := by
    unfold phi
    rw [if_neg]
    intro hfx
    rw [foldI_eq hS] at hfx
    have hfx := congrFun hfx d
    have rem : ∀ b, Bndp.Removes b → b ≠ .periodic ∧ (b == .reflecting) = false := by
      rintro b (h | h) <;> rw [h] <;> decide
    rcases hd with ⟨h1, h2, h3⟩ | ⟨h1, h2, h3⟩
    · obtain ⟨np, nr⟩ := rem _ h3
      have hlo : S.c.off r p d = 0 := by simpa [Bndp.ExchP.patch, Setup.pic, Pic.Setup.ex, Cfg.off] using h2
      change S.prt_lo d ≠ .periodic at np
      change (S.prt_lo d == .reflecting) = false at nr
      obtain ⟨hb, hside⟩ : S.c.D.bc d = false ∧ S.fld_lo d = .open := by
        rcases (hF.act d hi).2.2 with ⟨-, ⟨a, -⟩, -⟩ | ⟨a, b, -⟩
        · exact absurd a np
        · refine ⟨a, ?_⟩
          change Bndp.Removes (S.prt_lo d) at h3
          generalize S.prt_lo d = pb at *
          generalize S.fld_lo d = fb at *
          cases b with
          | wall _ => exact absurd nr (by decide)
          | «open» => rfl
          | absorbing => rfl
      have hx1 := hx0 d hi hside
      have f1 : ⌊q.x d * (1 / S.P.dx d)⌋ < 0 := by
        rw [Int.floor_lt, mul_one_div, div_lt_iff₀ hdx]; push_cast; linarith
      unfold fold1 Reflecting.mirrorNC at hfx
      rw [hb, nr] at hfx
      simp only [Bool.false_eq_true, if_false, false_and] at hfx
      split_ifs at hfx <;> omega
    · obtain ⟨np, nr⟩ := rem _ h3
      have hhi : S.c.off r p d + S.c.ldims d = S.c.gdims d := of_decide_eq_true h2
      change S.prt_hi d ≠ .periodic at np
      change (S.prt_hi d == .reflecting) = false at nr
      change S.c.ldims d * S.P.dx d ≤ q.x d at h1
      have hb : S.c.D.bc d = false := by
        rcases (hF.act d hi).2.2 with ⟨-, ⟨-, a⟩, -⟩ | ⟨a, -⟩
        · exact absurd a np
        · exact a
      have f1 : S.c.ldims d ≤ ⌊q.x d * (1 / S.P.dx d)⌋ := by
        rw [Int.le_floor, mul_one_div, le_div_iff₀ hdx]; exact h1
      have := hx d
      unfold fold1 Reflecting.mirrorNC at hfx
      rw [hb, nr] at hfx
      simp only [Bool.false_eq_true, if_false, false_and] at hfx
      split_ifs at hfx <;> omega
  rw [this]
  split_ifs <;> simp

/-- The exchange succeeds, puts every particle into the patch it lies in, and keeps the charge density at every node of the
domain that is not on a lower open boundary. -/
theorem exchange_spec {S : Setup} (hF : Fit S) (hS : Sound S) {prts : ℕ → ℕ → List Push.Prt} (hn : Near1 S prts) :
    ∃ T, exchangePrts S.pic prts = some T ∧ PrtsOk S T ∧
      ∀ x : I3, (∀ d, x d < S.c.gdims d) → (∀ d, S.cfg.inv d = false → S.fld_lo d = .open → 1 ≤ x d) →
        rhoW S T x = rhoW S (fun r p => (prts r p).map (nudge S (r, p))) x ∧
        (NoneOnWall S prts → rhoW S T x = rhoW S prts x) := by
  set g := S.pic.ex with hg
  set pB : ℕ → ℕ → List (Bndp.Prt ℝ (ℝ × ℕ)) := fun r p => (prts r p).map toB with hpB
  have hD : g.D.Valid := hF.valid.valid
  have hok : ∀ d, 0 < g.ldims d ∧ 0 < g.dx d := fun d => ⟨hF.pos d, hF.dx d⟩
  have mem : ∀ r p (b : Bndp.Prt ℝ (ℝ × ℕ)), b ∈ pB r p → ∃ q ∈ prts r p, toB q = b := fun r p b hb => List.mem_map.1 hb
  have near : Bndp.AllNear g pB := by
    intro r p hh b hb d
    obtain ⟨q, hq', rfl⟩ := mem r p b hb
    obtain ⟨⟨a1, a2⟩, a3⟩ := (hn r p hh q hq').2 d
    have hdx := hF.dx d
    have hL : (1 : ℝ) ≤ S.c.ldims d := by exact_mod_cast hF.pos d
    change -(S.c.ldims d * S.P.dx d) < q.x d ∧ q.x d < 2 * (S.c.ldims d * S.P.dx d)
    constructor <;> nlinarith
  have hper : ∀ d, g.prt_lo d = .periodic ∨ g.prt_hi d = .periodic → g.D.bc d = true ∨
      ∀ r p, g.D.Has r p → ∀ q ∈ pB r p, 0 ≤ q.x d ∧ q.x d < (g.patch r p).size d := by
    intro d hp
    cases hd : S.cfg.inv d
    · rcases (hF.act d hd).2.2 with ⟨a, -⟩ | ⟨-, a, b⟩
      · exact Or.inl a
      · have s : ∀ p f, Side d p f → p ≠ .periodic := by intro p f hs; cases hs <;> decide
        rcases hp with hp | hp
        · exact absurd hp (s _ _ a)
        · exact absurd hp (s _ _ b)
    · refine Or.inr fun r p hh b hb => ?_
      obtain ⟨q, hq', rfl⟩ := mem r p b hb
      exact ((hn r p hh q hq').2 d).2 hd
  obtain ⟨T, hT, hin, hperm⟩ := Props.C19_exchange_conserves_partial g hD hok pB near hper
  have hex : exchangePrts S.pic prts = some fun r p => (((Bndp.exchange g pB r).getD fun _ => []) p).map ofB := by
    unfold exchangePrts
    rw [if_pos]
    intro r hr
    show (Bndp.exchange g pB r).isSome = true
    rw [hT r (List.mem_range.1 hr)]
    rfl
  have eT : ∀ r p, S.c.D.Has r p → (((Bndp.exchange g pB r).getD fun _ => []) p).map ofB = (T r p).map ofB := by
    intro r p hh
    rw [hT r hh.1]; rfl
  refine ⟨_, hex, ?_, fun x hx hx0 => ?_⟩
  · intro r p hh q hq'
    simp only [eT r p hh] at hq'
    obtain ⟨b, hb, rfl⟩ := List.mem_map.1 hq'
    have h1 : b.rest ∈ (Bndp.allPatches g.D).flatMap fun rp => (T rp.1 rp.2).map Bndp.Prt.rest :=
      List.mem_flatMap.2 ⟨(r, p), Bndp.mem_allPatches.2 hh, List.mem_map.2 ⟨b, hb, rfl⟩⟩
    rw [hperm.mem_iff, List.mem_flatMap] at h1
    obtain ⟨⟨r', p'⟩, hrp, h1⟩ := h1
    obtain ⟨b', hb', e⟩ := List.mem_map.1 h1
    obtain ⟨q', hq2, e'⟩ := mem r' p' b' (List.mem_filter.1 hb').1
    have ek : q'.kind = (ofB b).kind := by
      show q'.kind = b.rest.2
      rw [← e, ← e']; rfl
    have := (hn r' p' (Bndp.mem_allPatches.1 hrp) q' hq2).1
    rw [ek] at this
    exact ⟨this.1, this.2, fun d => hin r p hh b hb d⟩
  · suffices main : _ from ⟨main, fun how => by
      rw [main]
      unfold rhoW
      refine congrArg List.sum (List.map_congr_left fun rp hrp => ?_)
      have hh := Bndp.mem_allPatches.1 hrp
      rw [List.map_map]
      exact congrArg List.sum (List.map_congr_left fun q hq => congrArg (gw S x rp) (nudge_eq (how rp.1 rp.2 hh q hq)))⟩
    have inn : ∀ r p, S.c.D.Has r p → ∀ b ∈ T r p, nudge S (r, p) (ofB b) = ofB b :=
      fun r p hh b hb => nudge_inside hF hh fun d => (hin r p hh b hb d).2
    have key := Bndp.exchange_weight g hD hok pB near hper T hT (fun rp b => gw S x rp (nudge S rp (ofB b))) ?_ ?_ ?_
    · have e1 : ∀ rp ∈ Bndp.allPatches S.c.D,
          (((((Bndp.exchange g pB rp.1).getD fun _ => []) rp.2).map ofB).map (gw S x rp)).sum =
          ((T rp.1 rp.2).map fun b => gw S x rp (nudge S rp (ofB b))).sum := by
        intro rp hrp
        rw [eT rp.1 rp.2 (Bndp.mem_allPatches.1 hrp), List.map_map]
        exact congrArg List.sum (List.map_congr_left fun b hb => by
          rw [inn rp.1 rp.2 (Bndp.mem_allPatches.1 hrp) b hb]; rfl)
      have e2 : ∀ rp ∈ Bndp.allPatches S.c.D, (((prts rp.1 rp.2).map (nudge S (rp.1, rp.2))).map (gw S x rp)).sum =
          ((pB rp.1 rp.2).map fun b => gw S x rp (nudge S rp (ofB b))).sum := by
        intro rp _
        rw [hpB, List.map_map, List.map_map]
        rfl
      unfold rhoW
      rw [List.map_congr_left e1, List.map_congr_left e2]
      exact key
    · intro r p hh b hb hl
      obtain ⟨q, hq', rfl⟩ := mem r p b hb
      exact gw_leave hF hS hh (hn r p hh q hq').2 hl hx hx0
    · intro r p hh b hb b' hb'
      obtain ⟨h1, h2⟩ := Props.C17_reexpressed (g.patch r p) hok b (near r p hh b hb) b' (fun _ => 0) (Or.inr ⟨hb', rfl⟩)
      have hb2 : nudge S (r, p) (ofB b') = ofB b' := nudge_inside hF hh fun d =>
        fate_inside (g := g.patch r p) hok (near r p hh b hb) (dir := 0) (Or.inr hb') d
      simp only [hb2]
      obtain ⟨q, hq', rfl⟩ := mem r p b hb
      refine gw_fate hF hS hh (fun d => ((hn r p hh q hq').2 d).1) (fun _ => 0) (congrArg Prod.fst h1)
        (congrArg Prod.snd h1) (fun d => ⟨fun a b => ((h2 d).1 a b).1, fun a => ⟨rfl, ((h2 d).2.1 a).2.1⟩,
          fun a => ⟨rfl, ((h2 d).2.2 a).2.2⟩⟩) (fun d => ⟨0, fun _ => rfl, by ring⟩) x
    · intro r p hh b hb dir b' rp' hb' hnei
      obtain ⟨r', p'⟩ := rp'
      obtain ⟨h1, h2⟩ := Props.C17_reexpressed (g.patch r p) hok b (near r p hh b hb) b' dir (Or.inl hb')
      have hdir : dir = Bndp.newDir (g.patch r p) b.x := by
        rw [Bndp.process1_eq (g := g.patch r p) hok (near r p hh b hb)] at hb'
        unfold Bndp.fate at hb'
        split_ifs at hb'
        · exact absurd hb' (by simp)
        · exact absurd hb' (by simp)
        · simp only [Option.some.injEq, Bndp.Fate.send.injEq] at hb'
          exact hb'.1.symm
      have hd : IsDir dir := by rw [hdir]; exact Bndp.newDir_isDir _ _
      have hgrid := (Props.C25_idx3_owner g.D hD r p hh).1
      obtain ⟨hh', -⟩ := Props.C26_neighbour_symm g.D hD r p r' p' dir hh hd hnei
      have hst := (nei_eq_some hD hh hh' hd).1 hnei
      have hs := ((Props.C26_neighbour_position g.D _ dir hgrid hd).1 _ (neiIdx_eq_some.2 hst)).2
      have hb2 : nudge S (r', p') (ofB b') = ofB b' := nudge_inside hF hh' fun d =>
        fate_inside (g := g.patch r p) hok (near r p hh b hb) (Or.inl hb') d
      simp only [hb2]
      obtain ⟨q, hq', rfl⟩ := mem r p b hb
      refine gw_fate hF hS hh (fun d => ((hn r p hh q hq').2 d).1) dir (congrArg Prod.fst h1)
        (congrArg Prod.snd h1) (fun d => ⟨fun a b => ((h2 d).1 a b).1, fun a => ⟨((h2 d).2.1 a).1, ((h2 d).2.1 a).2.1⟩,
          fun a => ⟨((h2 d).2.2 a).1, ((h2 d).2.2 a).2.2⟩⟩) (fun d => ?_) x
      have hsd := hs d
      unfold StepTo at hsd
      unfold Cfg.off Cfg.gdims
      change (S.c.D.idx3 r' p' d : ℤ) = S.c.D.idx3 r p d + dir d ∨ S.c.D.bc d = true ∧
        ((S.c.D.idx3 r' p' d : ℤ) = S.c.D.idx3 r p d + dir d + S.c.D.np d ∨
          (S.c.D.idx3 r' p' d : ℤ) = S.c.D.idx3 r p d + dir d - S.c.D.np d) at hsd
      rcases hsd with h | ⟨hb2, h | h⟩
      · exact ⟨0, fun _ => rfl, by rw [h]; ring⟩
      · exact ⟨1, fun h' => absurd hb2 (by rw [h']; decide), by rw [h]; ring⟩
      · exact ⟨-1, fun h' => absurd hb2 (by rw [h']; decide), by rw [h]; ring⟩

end

end Psc.WallPic
