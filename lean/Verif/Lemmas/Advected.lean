import Verif.Spec.Advected
import Verif.Lemmas.Domain
import Verif.Lemmas.Translate
import Verif.Lemmas.SerialWall

/-!
# Lemmas for C82
-/

namespace Psc.Advect

open Domain Ddc FieldStep Interp

variable {S : Setup}

theorem psize (hF : Fit S) : patch_size S = (S.c.ldims 1 : ℝ) * S.dx 1 := by
  have h : (S.c.D.np 1 : ℝ) ≠ 0 := by have := hF.np_pos 1; positivity
  unfold patch_size
  push_cast
  rw [div_eq_iff h]
  ring

theorem psize_pos (hF : Fit S) : 0 < patch_size S := by
  rw [psize hF]
  have h1 : (0 : ℝ) < S.c.ldims 1 := by exact_mod_cast hF.ldims_pos 1
  exact mul_pos h1 (hF.dx_pos 1)

/-- number of patches a position is away -/
structure Cyc (S : Setup) (y : ℝ) (n : ℕ) : Prop where
  lo : 0 ≤ y + n * patch_size S
  hi : n = 0 ∨ y + n * patch_size S < patch_size S

theorem shift_spec (hF : Fit S) (x : R3 ℝ) : ∃ n, Cyc S (x 1) n ∧
    shift_to_patch_local S x = some (fun d => if d = 1 then x 1 + (n : ℝ) * patch_size S else x d, n) := by
  classical
  have hp := psize_pos hF
  have h : ∃ n : ℕ, ¬ x 1 + (n : ℝ) * patch_size S < S.corner 1 := by
    obtain ⟨n, hn⟩ := Archimedean.arch (-(x 1)) hp
    refine ⟨n, ?_⟩
    rw [hF.corner, not_lt]
    rw [nsmul_eq_mul] at hn
    linarith
  refine ⟨Nat.find h, ⟨?_, ?_⟩, ?_⟩
  · have := Nat.find_spec h
    have hc := hF.corner
    linarith [not_lt.1 this]
  · rcases Nat.eq_zero_or_pos (Nat.find h) with h0 | h0
    · exact Or.inl h0
    · right
      have := Nat.find_min h (m := Nat.find h - 1) (by omega)
      have hc := hF.corner
      rw [not_not] at this
      rw [Nat.cast_sub h0] at this
      push_cast at this
      linarith
  · unfold shift_to_patch_local
    rw [dif_pos h]

theorem Cyc.unique (hp : 0 < patch_size S) {y : ℝ} {a b : ℕ} (ha : Cyc S y a) (hb : Cyc S y b) : a = b := by
  have key : ∀ {a b : ℕ}, Cyc S y a → Cyc S y b → ¬ a < b := by
    intro a b ha hb h
    rcases hb.hi with h0 | h1
    · omega
    · have h2 : (a : ℝ) + 1 ≤ b := by exact_mod_cast h
      have := ha.lo
      nlinarith
  have := key ha hb
  have := key hb ha
  omega

/-- the number at the next call is the same or one more -/
theorem Cyc.next (hp : 0 < patch_size S) {y y' : ℝ} {a b : ℕ} (ha : Cyc S y a) (hb : Cyc S y' b) (h0 : y' ≤ y)
    (h1 : y - y' ≤ patch_size S) (hy : y ≤ 0) : b = a ∨ b = a + 1 := by
  have h2 : a ≤ b := by
    by_contra h
    have h2 : (b : ℝ) + 1 ≤ a := by exact_mod_cast (by omega : b + 1 ≤ a)
    rcases ha.hi with h3 | h3
    · omega
    · have := hb.lo
      nlinarith
  have h3 : b ≤ a + 1 := by
    by_contra h
    have h2 : (a : ℝ) + 2 ≤ b := by exact_mod_cast (by omega : a + 2 ≤ b)
    rcases hb.hi with h3 | h3
    · omega
    · have := ha.lo
      nlinarith
  omega

/-! ## Ranks -/

theorem off_ones {l : List ℕ} (h : ∀ n ∈ l, n = 1) : ∀ r ≤ l.length, gpatch_off_all l r = r
  | 0, _ => rfl
  | r + 1, hr => by
    have e : l.getD r 0 = 1 := by
      rw [List.getD_eq_getElem?_getD, List.getElem?_eq_getElem (by omega), Option.getD_some]
      exact h _ (List.getElem_mem _)
    show gpatch_off_all l r + l.getD r 0 = r + 1
    rw [off_ones h r (by omega), e]

theorem total (hF : Fit S) : S.c.D.counts.length = S.c.D.np 0 * S.c.D.np 1 * S.c.D.np 2 := by
  rw [← hF.valid.sum, ← off_sum, off_ones hF.one _ le_rfl]

theorem idx3_eq (hF : Fit S) {r : ℕ} (hr : r < S.c.D.counts.length) : S.c.D.idx3 r 0 = bydim_idx_to_idx3 S.c.D.np r := by
  unfold Decomp.idx3
  rw [hF.curve, off_ones hF.one r hr.le]
  rfl

theorem flatten_eq (idx np : P3) : flatten_index (reverse idx) (reverse np) = bydim_idx3_to_idx np idx := rfl

theorem bydim_lt' (np p : P3) (hp : ∀ d, p d < np d) : bydim_idx3_to_idx np p < np 0 * np 1 * np 2 := by
  have h0 := hp 0; have h1 := hp 1; have h2 := hp 2
  unfold bydim_idx3_to_idx
  have a : p 2 * np 1 + p 1 + 1 ≤ np 1 * np 2 := by nlinarith
  nlinarith

/-- the patch one further down in y, periodically -/
def below (np idx : P3) : P3 := fun d => (idx d + np d - if d = 1 then 1 else 0) % np d
/-- the patch one further up in y, periodically -/
def above (np idx : P3) : P3 := fun d => (idx d + if d = 1 then 1 else 0) % np d

theorem above_below {np idx : P3} (h : ∀ d, idx d < np d) : above np (below np idx) = idx := by
  funext d
  unfold above below
  have hd := h d
  by_cases h1 : d = 1
  · simp only [if_pos h1]
    rcases Nat.eq_zero_or_pos (idx d) with h0 | h0
    · rw [h0, Nat.zero_add, Nat.mod_eq_of_lt (by omega : np d - 1 < np d), Nat.sub_add_cancel (by omega), Nat.mod_self]
    · rw [show idx d + np d - 1 = (idx d - 1) + np d by omega, Nat.add_mod_right, Nat.mod_eq_of_lt (by omega : idx d - 1 < np d),
        Nat.sub_add_cancel h0, Nat.mod_eq_of_lt hd]
  · simp only [if_neg h1, Nat.sub_zero, Nat.add_zero, Nat.add_mod_right, Nat.mod_mod, Nat.mod_eq_of_lt hd]

theorem below_above {np idx : P3} (h : ∀ d, idx d < np d) : below np (above np idx) = idx := by
  funext d
  unfold above below
  have hd := h d
  by_cases h1 : d = 1
  · simp only [if_pos h1]
    rcases Nat.lt_or_ge (idx d + 1) (np d) with h0 | h0
    · rw [Nat.mod_eq_of_lt h0, show idx d + 1 + np d - 1 = idx d + np d by omega, Nat.add_mod_right, Nat.mod_eq_of_lt hd]
    · rw [show idx d + 1 = np d by omega, Nat.mod_self, Nat.zero_add, Nat.mod_eq_of_lt (by omega : np d - 1 < np d)]
      omega
  · simp only [if_neg h1, Nat.sub_zero, Nat.add_zero, Nat.add_mod_right, Nat.mod_mod, Nat.mod_eq_of_lt hd]

theorem below_lt {np idx : P3} (h : ∀ d, idx d < np d) (d : Fin 3) : below np idx d < np d :=
  Nat.mod_lt _ (by have := h d; omega)
theorem above_lt {np idx : P3} (h : ∀ d, idx d < np d) (d : Fin 3) : above np idx d < np d :=
  Nat.mod_lt _ (by have := h d; omega)

theorem rank_spec (hF : Fit S) {r : ℕ} (hr : r < S.c.D.counts.length) :
    (∀ d, S.c.D.idx3 r 0 d < S.c.D.np d) ∧
    (source_rank S.c.D r < S.c.D.counts.length ∧ dest_rank S.c.D (source_rank S.c.D r) = r ∧
      S.c.D.idx3 (source_rank S.c.D r) 0 = below S.c.D.np (S.c.D.idx3 r 0)) ∧
    (dest_rank S.c.D r < S.c.D.counts.length ∧ source_rank S.c.D (dest_rank S.c.D r) = r) := by
  have hr' := hr
  rw [total hF] at hr'
  obtain ⟨h1, h2⟩ := bydim_right S.c.D.np r hr'
  rw [← idx3_eq hF hr] at h1 h2
  have es : ∀ q, source_rank S.c.D q = bydim_idx3_to_idx S.c.D.np (below S.c.D.np (S.c.D.idx3 q 0)) := fun q => rfl
  have ed : ∀ q, dest_rank S.c.D q = bydim_idx3_to_idx S.c.D.np (above S.c.D.np (S.c.D.idx3 q 0)) := fun q => rfl
  have ls : source_rank S.c.D r < S.c.D.counts.length := by
    rw [total hF, es]; exact bydim_lt' _ _ (below_lt h2)
  have ld : dest_rank S.c.D r < S.c.D.counts.length := by
    rw [total hF, ed]; exact bydim_lt' _ _ (above_lt h2)
  have is : S.c.D.idx3 (source_rank S.c.D r) 0 = below S.c.D.np (S.c.D.idx3 r 0) := by
    rw [idx3_eq hF ls, es, bydim_left _ _ (below_lt h2)]
  have id' : S.c.D.idx3 (dest_rank S.c.D r) 0 = above S.c.D.np (S.c.D.idx3 r 0) := by
    rw [idx3_eq hF ld, ed, bydim_left _ _ (above_lt h2)]
  refine ⟨h2, ⟨ls, ?_, is⟩, ld, ?_⟩
  · rw [ed, is, above_below h2, h1]
  · rw [es, id', below_above h2, h1]

/-- offsets of the patch below: one patch less, up to the length of the box -/
theorem off_below (hF : Fit S) {r : ℕ} (hr : r < S.c.D.counts.length) :
    S.c.off (source_rank S.c.D r) 0 0 = S.c.off r 0 0 ∧ S.c.off (source_rank S.c.D r) 0 2 = S.c.off r 0 2 ∧
    (S.c.off (source_rank S.c.D r) 0 1 = S.c.off r 0 1 - S.c.ldims 1 ∨
      S.c.off (source_rank S.c.D r) 0 1 = S.c.off r 0 1 - S.c.ldims 1 + S.c.gdims 1) := by
  obtain ⟨h2, ⟨-, -, e⟩, -⟩ := rank_spec hF hr
  unfold Cfg.off Cfg.gdims
  rw [e]
  have other : ∀ d : Fin 3, d ≠ 1 → below S.c.D.np (S.c.D.idx3 r 0) d = S.c.D.idx3 r 0 d := by
    intro d hd
    unfold below
    simp only [if_neg hd, Nat.sub_zero, Nat.add_mod_right, Nat.mod_eq_of_lt (h2 d)]
  refine ⟨by rw [other 0 (by decide)], by rw [other 2 (by decide)], ?_⟩
  have h1 := h2 1
  have eb : below S.c.D.np (S.c.D.idx3 r 0) 1 = (S.c.D.idx3 r 0 1 + S.c.D.np 1 - 1) % S.c.D.np 1 := rfl
  rcases Nat.eq_zero_or_pos (S.c.D.idx3 r 0 1) with h0 | h0
  · right
    rw [eb, h0, Nat.zero_add, Nat.mod_eq_of_lt (by omega), Nat.cast_sub (by omega)]
    push_cast
    ring
  · left
    rw [eb, show S.c.D.idx3 r 0 1 + S.c.D.np 1 - 1 = (S.c.D.idx3 r 0 1 - 1) + S.c.D.np 1 by omega, Nat.add_mod_right,
      Nat.mod_eq_of_lt (by omega), Nat.cast_sub h0]
    push_cast
    ring

/-! ## The cache -/

/-- after `k` exchanges every rank holds the wave field `k` patches further down -/
structure Inv (S : Setup) (G : Fld ℝ) (k : ℕ) (s : Cache) : Prop where
  cycles : ∀ r < S.c.D.counts.length, s.cycles r = k
  fields : ∀ r < S.c.D.counts.length, ∀ n, Reach S n → ∀ m, s.fields r m (n 0) (n 1) (n 2) =
    G m (S.c.off r 0 0 + n 0) (S.c.off r 0 1 + n 1 - k * S.c.ldims 1) (S.c.off r 0 2 + n 2)

theorem comp_cases (m : Fin 6) : ∃ d, m = eComp d ∨ m = hComp d := by
  fin_cases m
  exacts [⟨0, .inl rfl⟩, ⟨1, .inl rfl⟩, ⟨2, .inl rfl⟩, ⟨0, .inr rfl⟩, ⟨1, .inr rfl⟩, ⟨2, .inr rfl⟩]

theorem init_inv {bg_e bg_h : R3 ℝ} {G : Fld ℝ} {flds : Glob ℝ} (h : StartsAs S bg_e bg_h G flds) :
    Inv S G 0 (init bg_e bg_h flds) where
  cycles _ _ := rfl
  fields r hr n hn m := by
    obtain ⟨d, rfl | rfl⟩ := comp_cases m
    · have e := (h r hr n hn d).1
      show Pic.emOf (flds r 0) _ _ _ _ - _ = _
      rw [e, show (![bg_e 0, bg_e 1, bg_e 2, bg_h 0, bg_h 1, bg_h 2] : Fin 6 → ℝ) (eComp d) = bg_e d by fin_cases d <;> rfl]
      simp
    · have e := (h r hr n hn d).2
      show Pic.emOf (flds r 0) _ _ _ _ - _ = _
      rw [e, show (![bg_e 0, bg_e 1, bg_e 2, bg_h 0, bg_h 1, bg_h 2] : Fin 6 → ℝ) (hComp d) = bg_h d by fin_cases d <;> rfl]
      simp

theorem zero_shift (hF : Fit S) (t : ℝ) : ∃ n x, Cyc S (-(t * S.v)) n ∧
    shift_to_patch_local S (advect_x3 S t fun _ => 0) = some (x, n) := by
  obtain ⟨n, h1, h2⟩ := shift_spec hF (advect_x3 S t fun _ => 0)
  refine ⟨n, _, ?_, h2⟩
  have : advect_x3 S t (fun _ => 0) 1 = -(t * S.v) := by simp [advect_x3]
  rwa [this] at h1

theorem update_spec (hF : Fit S) {G : Fld ℝ} (hG : PeriodicY S G) {k : ℕ} {s : Cache} (hs : Inv S G k s) {t : ℝ} {n : ℕ}
    (hn : Cyc S (-(t * S.v)) n) (hk : n = k ∨ n = k + 1) :
    ∃ s', update_cache_lower S t s = some s' ∧ Inv S G n s' := by
  classical
  obtain ⟨n', x, h1, h2⟩ := zero_shift hF t
  obtain rfl := Cyc.unique (psize_pos hF) hn h1
  have hm : Matched S.c.D n s := by
    intro r hr hp
    obtain ⟨-, ⟨a1, a2, -⟩, b1, b2⟩ := rank_spec hF hr
    have hp' : n ≠ k := by rw [← hs.cycles r hr]; exact hp
    exact ⟨⟨a1, by unfold parts; rwa [hs.cycles _ a1], a2⟩, b1, by unfold parts; rwa [hs.cycles _ b1], b2⟩
  refine ⟨{ fields := fun r => if parts n s r then s.fields (source_rank S.c.D r) else s.fields r
            cycles := fun r => if parts n s r then s.cycles r + 1 else s.cycles r }, ?_, ?_⟩
  · unfold update_cache_lower
    rw [if_neg (not_not.2 hF.one), h2]
    simp only [Option.bind_eq_bind, Option.bind_some, if_pos hm]
  · rcases hk with rfl | rfl
    · have np : ∀ r < S.c.D.counts.length, ¬ parts n s r := fun r hr h => h (hs.cycles r hr).symm
      exact ⟨fun r hr => by simp only [if_neg (np r hr)]; exact hs.cycles r hr,
        fun r hr q hq m => by simp only [if_neg (np r hr)]; exact hs.fields r hr q hq m⟩
    · have np : ∀ r < S.c.D.counts.length, parts (k + 1) s r := fun r hr h => by rw [hs.cycles r hr] at h; omega
      refine ⟨fun r hr => by simp only [if_pos (np r hr)]; rw [hs.cycles r hr], fun r hr q hq m => ?_⟩
      simp only [if_pos (np r hr)]
      obtain ⟨-, ⟨a1, -, -⟩, -⟩ := rank_spec hF hr
      obtain ⟨e0, e2, e1⟩ := off_below hF hr
      rw [hs.fields _ a1 q hq m, e0, e2]
      push_cast
      rcases e1 with e1 | e1
      · rw [e1]
        congr 1
        ring
      · rw [e1, ← hG m _ (S.c.off r 0 1 + q 1 - (k + 1) * S.c.ldims 1)]
        congr 1
        ring

theorem updates_spec (hF : Fit S) {G : Fld ℝ} (hG : PeriodicY S G) : ∀ (ts : List ℝ) (t0 : ℝ) (k : ℕ) (s : Cache), 0 ≤ t0 →
    Cyc S (-(t0 * S.v)) k → Inv S G k s → Paced S t0 ts →
    ∃ s' n, updates S ts s = some s' ∧ Inv S G n s' ∧ Cyc S (-((ts.getLast?.getD t0) * S.v)) n ∧ 0 ≤ ts.getLast?.getD t0
  | [], t0, k, s, h0, hk, hs, _ => ⟨s, k, rfl, hs, hk, h0⟩
  | t :: ts, t0, k, s, h0, hk, hs, hp => by
    obtain ⟨p1, p2, p3⟩ := hp
    obtain ⟨n, x, h1, -⟩ := zero_shift hF t
    have hv := hF.v_nonneg
    have hn := Cyc.next (psize_pos hF) hk h1 (by nlinarith) (by rw [psize hF]; linarith) (by nlinarith)
    obtain ⟨s1, e1, i1⟩ := update_spec hF hG hs h1 hn
    obtain ⟨s', n', e2, i2, c2, z2⟩ := updates_spec hF hG ts t n s1 (h0.trans p1) h1 i1 p3
    refine ⟨s', n', ?_, i2, ?_⟩
    · simp only [updates, Option.bind_eq_bind, e1, Option.bind_some, e2]
    · have : (t :: ts).getLast?.getD t0 = ts.getLast?.getD t := by
        rw [List.getLast?_cons]
        rfl
      rw [this]
      exact ⟨c2, z2⟩

/-! ## The pulses -/

theorem interp_congr (hF : Fit S) {u : R3 ℝ} (hu : ∀ d, 0 ≤ u d ∧ u d < S.c.ldims d) {A B : Fld ℝ}
    (h : ∀ m n, Reach S n → A m (n 0) (n 1) (n 2) = B m (n 0) (n 1) (n 2)) : S.interp u A = S.interp u B := by
  have b := fun d => Interp.c1_in (n := S.c.ldims d) (hu d).1 (hu d).2
  rcases hF.dim with ⟨e, hd⟩ | ⟨e, -, hd⟩
  · rw [e]
    have r : ∀ m i j k, 0 ≤ i → i ≤ S.c.ldims 0 → 0 ≤ j → j ≤ S.c.ldims 1 → 0 ≤ k → k ≤ S.c.ldims 2 →
        A m i j k = B m i j k := by
      intro m i j k i0 i1 j0 j1 k0 k1
      refine h m ![i, j, k] fun d => ?_
      have := hd d
      fin_cases d
      · exact ⟨i0, i1, fun q => absurd q (ne_of_gt this)⟩
      · exact ⟨j0, j1, fun q => absurd q (ne_of_gt this)⟩
      · exact ⟨k0, k1, fun q => absurd q (ne_of_gt this)⟩
    exact WallPic.ec_xyz_congr (L := S.c.ldims) (b 0) (b 1) (b 2)
      (fun i j k a1 a2 a3 a4 a5 a6 => r 0 i j k a1 (by omega) a3 (by omega) a5 (by omega))
      (fun i j k a1 a2 a3 a4 a5 a6 => r 1 i j k a1 (by omega) a3 (by omega) a5 (by omega))
      (fun i j k a1 a2 a3 a4 a5 a6 => r 2 i j k a1 (by omega) a3 (by omega) a5 (by omega))
      (fun i j k a1 a2 a3 a4 a5 a6 => r 3 i j k a1 (by omega) a3 (by omega) a5 (by omega))
      (fun i j k a1 a2 a3 a4 a5 a6 => r 4 i j k a1 (by omega) a3 (by omega) a5 (by omega))
      (fun i j k a1 a2 a3 a4 a5 a6 => r 5 i j k a1 (by omega) a3 (by omega) a5 (by omega))
  · rw [e]
    have r : ∀ m j k, 0 ≤ j → j ≤ S.c.ldims 1 → 0 ≤ k → k ≤ S.c.ldims 2 → A m 0 j k = B m 0 j k := by
      intro m j k j0 j1 k0 k1
      refine h m ![0, j, k] fun d => ?_
      have := hd d
      have l0 := hF.ldims_pos 0
      fin_cases d
      · exact ⟨le_rfl, l0.le, fun _ => rfl⟩
      · exact ⟨j0, j1, fun q => absurd q (ne_of_gt (this (by decide)))⟩
      · exact ⟨k0, k1, fun q => absurd q (ne_of_gt (this (by decide)))⟩
    exact WallPic.ec_yz_congr (L := S.c.ldims) (b 1) (b 2)
      (fun j k a3 a4 a5 a6 => r 0 j k a3 (by omega) a5 (by omega))
      (fun j k a3 a4 a5 a6 => r 1 j k a3 (by omega) a5 (by omega))
      (fun j k a3 a4 a5 a6 => r 2 j k a3 (by omega) a5 (by omega))
      (fun j k a3 a4 a5 a6 => r 3 j k a3 (by omega) a5 (by omega))
      (fun j k a3 a4 a5 a6 => r 4 j k a3 (by omega) a5 (by omega))
      (fun j k a3 a4 a5 a6 => r 5 j k a3 (by omega) a5 (by omega))

theorem off_x (hF : Fit S) (h : S.c.gdims 0 = 1) {r : ℕ} (hr : r < S.c.D.counts.length) : S.c.off r 0 0 = 0 := by
  obtain ⟨h2, -⟩ := rank_spec hF hr
  have a := h2 0
  have l0 := hF.ldims_pos 0
  unfold Cfg.gdims at h
  have n1 : S.c.D.np 0 = 1 := by
    by_contra q
    have : (2 : ℤ) ≤ S.c.D.np 0 := by omega
    nlinarith
  unfold Cfg.off
  rw [show S.c.D.idx3 r 0 0 = 0 by omega]
  simp

theorem interp_shift (hF : Fit S) (u : R3 ℝ) (s : I3) (h : S.c.gdims 0 = 1 → s 0 = 0) (G : Fld ℝ) :
    S.interp (fun d => u d + s d) G = S.interp u (Translate.shiftF s G) := by
  rcases hF.dim with ⟨e, -⟩ | ⟨e, hd, -⟩
  · rw [e]; exact Translate.ec_xyz_add u s G
  · rw [e]; exact Translate.ec_yz_add u s (h hd) G

theorem calc_spec (hF : Fit S) {G : Fld ℝ} {k : ℕ} {s : Cache} (hs : Inv S G k s) {t : ℝ} (ht : 0 ≤ t)
    (hn : Cyc S (-(t * S.v)) k) {r : ℕ} (hr : r < S.c.D.counts.length) {x : R3 ℝ} (hy : x 1 = 0)
    (hx : ∀ d, d ≠ 1 → 0 ≤ x d ∧ x d < (S.c.ldims d : ℝ) * S.dx d) :
    calc_e_h S t s r x = some (carried S G t r x) := by
  obtain ⟨n, h1, h2⟩ := shift_spec hF (advect_x3 S t x)
  have ey : advect_x3 S t x 1 = -(t * S.v) := by simp [advect_x3, hy]
  rw [ey] at h1 h2
  obtain rfl := Cyc.unique (psize_pos hF) hn h1
  unfold calc_e_h
  rw [h2]
  simp only [Option.bind_eq_bind, Option.bind_some]
  rw [if_neg (by rw [hs.cycles r hr]; simp)]
  congr 1
  set u : R3 ℝ := fun d => (if d = 1 then -(t * S.v) + (k : ℝ) * patch_size S else advect_x3 S t x d) * (1 / S.dx d) with hu
  have hub : ∀ d, 0 ≤ u d ∧ u d < S.c.ldims d := by
    intro d
    have hd := hF.dx_pos d
    have l0 : (0 : ℝ) < S.c.ldims d := by exact_mod_cast hF.ldims_pos d
    simp only [hu, mul_one_div]
    rw [div_lt_iff₀ hd]
    by_cases h : d = 1
    · subst h
      simp only [if_true]
      refine ⟨div_nonneg hn.lo hd.le, ?_⟩
      rcases hn.hi with h0 | h0
      · subst h0
        have := mul_pos l0 hd
        have := mul_nonneg ht hF.v_nonneg
        push_cast
        linarith
      · rw [← psize hF]; exact h0
    · simp only [if_neg h, advect_x3, sub_zero]
      exact ⟨div_nonneg (hx d h).1 hd.le, (hx d h).2⟩
  let sh : I3 := fun d => S.c.off r 0 d - if d = 1 then k * S.c.ldims 1 else 0
  have e1 : S.interp u (s.fields r) = S.interp u (Translate.shiftF sh G) := by
    refine interp_congr hF hub fun m q hq => ?_
    rw [hs.fields r hr q hq m]
    unfold Translate.shiftF
    have s0 : sh 0 = S.c.off r 0 0 := by simp [sh]
    have s1 : sh 1 = S.c.off r 0 1 - k * S.c.ldims 1 := by simp [sh]
    have s2 : sh 2 = S.c.off r 0 2 := by simp [sh]
    rw [s0, s1, s2]
    congr 1 <;> ring
  rw [e1, ← interp_shift hF u sh (fun h => by simp [sh, off_x hF h hr]) G]
  unfold carried
  congr 1
  funext d
  simp only [hu, sh]
  by_cases h : d = 1
  · subst h
    have hd := (hF.dx_pos 1).ne'
    simp only [if_true]
    rw [psize hF, hy]
    push_cast
    field_simp
    ring
  · simp only [if_neg h, advect_x3, sub_zero, mul_one_div]

end Psc.Advect
