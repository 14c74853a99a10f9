import Verif.Lemmas.BndWall
import Verif.Spec.Reflecting
import Mathlib.Data.List.ProdSigma

/-!
# What folding the current back at conducting walls does, against a test function
-/

namespace Psc.BndFields

open Domain Fields Ddc FieldStep Spec Yee

section
variable {K : Type} [Field K]

/-- A loop each of whose iterations reads and writes its own column only. -/
theorem foldl_cols {α C V : Type*} (l : List α) (hl : l.Nodup) (b : (C → V) → α → C → V) (col : α → C → Prop)
    (hdis : ∀ a a' k, col a k → col a' k → a = a')
    (hfr : ∀ a ∈ l, ∀ F k, ¬ col a k → b F a k = F k)
    (hloc : ∀ a ∈ l, ∀ F G : C → V, (∀ k, col a k → F k = G k) → ∀ k, col a k → b F a k = b G a k) (F : C → V) (k : C) :
    (∀ a ∈ l, col a k → l.foldl b F k = b F a k) ∧ ((∀ a ∈ l, ¬ col a k) → l.foldl b F k = F k) := by
  induction l generalizing F with
  | nil => simp
  | cons a l ih =>
    obtain ⟨i1, i2⟩ := ih hl.of_cons (fun a ha => hfr a (List.mem_cons_of_mem _ ha))
      (fun a ha => hloc a (List.mem_cons_of_mem _ ha)) (b F a)
    have hnot : a ∉ l := (List.nodup_cons.1 hl).1
    simp only [List.foldl_cons]
    refine ⟨fun a' ha' hk => ?_, fun h => ?_⟩
    · rcases List.mem_cons.1 ha' with rfl | ha'
      · exact i2 fun a ha hk' => hnot (by rwa [hdis a' a k hk hk'])
      · rw [i1 a' ha' hk]
        refine hloc a' (List.mem_cons_of_mem _ ha') _ _ (fun k' hk' => ?_) k hk
        exact hfr a List.mem_cons_self F k' fun h => hnot (by rwa [hdis a a' k' h hk'])
    · rw [i2 fun a ha => h a (List.mem_cons_of_mem _ ha), hfr a List.mem_cons_self F k (h a List.mem_cons_self)]

/-- index `n` with the index in direction `d` replaced -/
def put (n : I3) (d : Fin 3) (y : ℤ) : I3 := Function.update n d y

theorem put_self (n : I3) (d : Fin 3) (y : ℤ) : put n d y d = y := Function.update_self _ _ _
theorem put_ne (n : I3) {d e : Fin 3} (y : ℤ) (h : e ≠ d) : put n d y e = n e := Function.update_of_ne h _ _
theorem put_same (n : I3) (d : Fin 3) : put n d (n d) = n := Function.update_eq_self _ _
theorem put_put (n : I3) (d : Fin 3) (y z : ℤ) : put (put n d y) d z = put n d z := Function.update_idem _ _ _
theorem put_eq {n : I3} {d : Fin 3} {y : ℤ} (h : n d = y) : put n d y = n := by rw [← h, put_same]

/-- what the two wall functions for the current do to one column: for each component move what is at `s` to `t`, times `σ` -/
def genWall (s t : Fin 3 → ℤ) (σ : Fin 3 → K) (g : GridP K) (F : PF K) (at_ : ℤ → I3) : PF K :=
  (List.finRange 3).foldl (fun F (m : Fin 3) =>
    wr g (wr g F (JXI + m) (at_ (t m)) (rd g F (JXI + m) (at_ (t m)) + σ m * rd g F (JXI + m) (at_ (s m))))
      (JXI + m) (at_ (s m)) 0) F

theorem wallJ_lo_gen (g : GridP K) (d : Fin 3) (F : PF K) (at_ : ℤ → I3) : wallJ_lo g d F at_ =
    genWall (fun _ => -1) (fun m => if m = d then 0 else 1) (fun m => if m = d then -1 else 1) g F at_ := by
  unfold wallJ_lo genWall
  dsimp only
  refine congrArg (fun f => List.foldl f F (List.finRange 3)) ?_
  funext F m
  by_cases h : m = d
  · simp only [if_pos h]; rw [neg_one_mul, ← sub_eq_add_neg]
  · simp only [if_neg h]; rw [one_mul]

theorem wallJ_hi_gen (g : GridP K) (d : Fin 3) (F : PF K) (at_ : ℤ → I3) : wallJ_hi g d F at_ =
    genWall (fun m => if m = d then g.ldims d else g.ldims d + 1) (fun _ => g.ldims d - 1)
      (fun m => if m = d then -1 else 1) g F at_ := by
  unfold wallJ_hi genWall
  dsimp only
  refine congrArg (fun f => List.foldl f F (List.finRange 3)) ?_
  funext F m
  by_cases h : m = d
  · simp only [if_pos h]; rw [neg_one_mul, ← sub_eq_add_neg]
  · simp only [if_neg h]; rw [one_mul]

theorem genWall_val (s t : Fin 3 → ℤ) (σ : Fin 3 → K) (g : GridP K) (F : PF K) (d : Fin 3) (n : I3)
    (hn : ∀ y, pos g.inv (put n d y) = put n d y) (hst : ∀ m, s m ≠ t m) (at_ : ℤ → I3) (hat : ∀ y, at_ y = put n d y) :
    (∀ (m : Fin 3) (y : ℤ), genWall s t σ g F at_ (JXI + m, put n d y) = if y = s m then 0 else
      F (JXI + m, put n d y) + if y = t m then σ m * F (JXI + m, put n d (s m)) else 0) ∧
    ∀ k : ℕ × I3, (∀ y, k.2 ≠ put n d y) → genWall s t σ g F at_ k = F k := by
  have inj : ∀ y z, put n d y = put n d z ↔ y = z := by
    intro y z
    refine ⟨fun h => ?_, fun h => by rw [h]⟩
    have := congrFun h d
    rwa [put_self, put_self] at this
  constructor
  · intro m y
    have := (foldl_cols (List.finRange 3) (List.nodup_finRange 3) (fun (F : PF K) (m : Fin 3) =>
      wr g (wr g F (JXI + m) (at_ (t m)) (rd g F (JXI + m) (at_ (t m)) + σ m * rd g F (JXI + m) (at_ (s m))))
        (JXI + m) (at_ (s m)) 0) (fun m k => k.1 = JXI + (m : ℕ)) ?_ ?_ ?_ F (JXI + (m : ℕ), put n d y)).1 m
        (List.mem_finRange m) rfl
    · unfold genWall
      rw [this]
      unfold rd
      by_cases h1 : y = s m
      · subst h1
        rw [if_pos rfl]
        have := wr_same g (wr g F (JXI + m) (at_ (t m)) (F (JXI + ↑m, pos g.inv (at_ (t m))) +
          σ m * F (JXI + ↑m, pos g.inv (at_ (s m))))) (JXI + m) (at_ (s m)) 0
        rwa [show pos g.inv (at_ (s m)) = put n d (s m) by rw [hat, hn]] at this ⊢
      · rw [if_neg h1, wr_other]
        · by_cases h2 : y = t m
          · subst h2
            rw [if_pos rfl]
            have := wr_same g F (JXI + m) (at_ (t m)) (F (JXI + ↑m, pos g.inv (at_ (t m))) +
              σ m * F (JXI + ↑m, pos g.inv (at_ (s m))))
            rw [show pos g.inv (at_ (t m)) = put n d (t m) by rw [hat, hn],
              show pos g.inv (at_ (s m)) = put n d (s m) by rw [hat, hn]] at this ⊢
            exact this
          · rw [if_neg h2, add_zero, wr_other]
            rw [hat, hn]
            intro h
            exact h2 ((inj _ _).1 (Prod.mk.inj h).2)
        · rw [hat, hn]
          intro h
          exact h1 ((inj _ _).1 (Prod.mk.inj h).2)
    · intro a a' k h1 h2
      rw [h1] at h2
      ext; omega
    · intro a _ F k hk
      rw [wr_other, wr_other]
      · intro h; exact hk (by rw [h])
      · intro h; exact hk (by rw [h])
    · intro a _ F G h k hk
      unfold wr rd
      simp only [Function.update_apply]
      rw [h _ hk, h _ rfl, h _ rfl]
  · intro k hk
    unfold genWall
    refine foldl_frame _ _ (fun k => ∃ y, k.2 = put n d y) (fun m _ F k hk => ?_) F k (by rintro ⟨y, h⟩; exact hk y h)
    rw [wr_other, wr_other]
    · intro h; exact hk ⟨t m, by rw [h, hat, hn]⟩
    · intro h; exact hk ⟨s m, by rw [h, hat, hn]⟩

theorem nodup_rng (lo hi : ℤ) : (rng lo hi).Nodup := by
  unfold rng
  refine List.Nodup.map (fun a b h => ?_) List.nodup_range
  simpa using h

theorem foldl_pairs {α β S : Type*} (l : List α) (l' : List β) (f : S → α × β → S) (s : S) :
    (l ×ˢ l').foldl f s = l.foldl (fun s a => l'.foldl (fun s b => f s (a, b)) s) s := by
  induction l generalizing s with
  | nil => rfl
  | cons a l ih => rw [List.product_cons, List.foldl_append, ih, List.foldl_map, List.foldl_cons]

/-- what a wall loop over columns of the kind `genWall` does to a current that vanishes where the loop does not go -/
theorem wallLoop_val (c : Cfg) (g : GridP K) (d e : Fin 3) (hde : d = 1 ∧ e = 2 ∨ d = 2 ∧ e = 1)
    (h1 : g.inv 1 = false) (h2 : g.inv 2 = false) (h0 : g.inv 0 = true → ibOf c 0 = 0 ∧ ieOf c 0 = 1)
    (s t : Fin 3 → ℤ) (σ : Fin 3 → K) (hst : ∀ m, s m ≠ t m) (F : PF K)
    (hF : ∀ (m : Fin 3) n, F (JXI + m, n) ≠ 0 → (max (-2) (ibOf c 0) ≤ n 0 ∧ n 0 < min (g.ldims 0 + 2) (ieOf c 0)) ∧
      -2 ≤ n e ∧ n e < g.ldims e + 2) (m : Fin 3) (n : I3) :
    wallLoop c g e (-2) (genWall s t σ g) F (JXI + m, n) =
      (if n d = s m then 0 else F (JXI + m, n)) + if n d = t m then σ m * F (JXI + m, put n d (s m)) else 0 := by
  have hd0 : d ≠ 0 := by rintro rfl; rcases hde with h | h <;> exact absurd h.1 (by decide)
  have he0 : e ≠ 0 := by rintro rfl; rcases hde with h | h <;> exact absurd h.2 (by decide)
  have hed : e ≠ d := by rcases hde with ⟨rfl, rfl⟩ | ⟨rfl, rfl⟩ <;> decide
  set at' : ℤ × ℤ → ℤ → I3 := fun ba y => if e = 2 then ![ba.2, y, ba.1] else ![ba.2, ba.1, y] with hat'
  have at_d : ∀ ba y, at' ba y d = y := by
    intro ba y; rcases hde with ⟨rfl, rfl⟩ | ⟨rfl, rfl⟩ <;> simp [hat']
  have at_e : ∀ ba y, at' ba y e = ba.1 := by
    intro ba y; rcases hde with ⟨rfl, rfl⟩ | ⟨rfl, rfl⟩ <;> simp [hat']
  have at_0 : ∀ ba y, at' ba y 0 = ba.2 := by
    intro ba y; rcases hde with ⟨rfl, rfl⟩ | ⟨rfl, rfl⟩ <;> simp [hat']
  have ext3 : ∀ x y : I3, x 0 = y 0 → x e = y e → x d = y d → x = y := by
    intro x y a b c
    funext i
    rcases hde with ⟨rfl, rfl⟩ | ⟨rfl, rfl⟩ <;> fin_cases i <;> assumption
  have at_put : ∀ ba y z, at' ba y = put (at' ba z) d y := by
    intro ba y z
    refine ext3 _ _ ?_ ?_ ?_
    · rw [put_ne _ _ hd0.symm, at_0, at_0]
    · rw [put_ne _ _ hed, at_e, at_e]
    · rw [put_self, at_d]
  have pos_id : ∀ x : I3, (max (-2) (ibOf c 0) ≤ x 0 ∧ x 0 < min (g.ldims 0 + 2) (ieOf c 0)) → pos g.inv x = x := by
    intro x hx
    funext i
    unfold pos ix
    fin_cases i
    · cases h : g.inv 0
      · simp [h]
      · have := h0 h
        simp only [Fin.zero_eta, h, if_true]
        omega
    · simp [h1]
    · simp [h2]
  set l1 := rng (-2) (g.ldims e + 2) with hl1
  set l2 := rng (max (-2) (ibOf c 0)) (min (g.ldims 0 + 2) (ieOf c 0)) with hl2
  have hloop : wallLoop c g e (-2) (genWall s t σ g) F = (l1 ×ˢ l2).foldl (fun F ba => genWall s t σ g F (at' ba)) F := by
    rw [foldl_pairs]; rfl
  have val : ∀ ba ∈ l1 ×ˢ l2, ∀ F : PF K, _ := fun ba hba F =>
    genWall_val s t σ g F d (at' ba 0) (fun y => by
      rw [← at_put ba y 0]
      refine pos_id _ ?_
      rw [at_0]
      exact mem_rng.1 (List.mem_product.1 hba).2) hst (at' ba) (fun y => at_put ba y 0)
  have col_iff : ∀ (ba : ℤ × ℤ) (x : I3), (x 0 = ba.2 ∧ x e = ba.1) → x = put (at' ba 0) d (x d) := by
    rintro ba x ⟨ha, hb⟩
    rw [← at_put ba]
    exact ext3 _ _ (by rw [at_0, ha]) (by rw [at_e, hb]) (by rw [at_d])
  have key := foldl_cols (l1 ×ˢ l2) (List.Nodup.product (nodup_rng _ _) (nodup_rng _ _))
    (fun F ba => genWall s t σ g F (at' ba)) (fun ba k => (k.2 0 = ba.2 ∧ k.2 e = ba.1)) ?_ ?_ ?_ F (JXI + (m : ℕ), n)
  · rw [hloop]
    by_cases hv : (n e, n 0) ∈ l1 ×ˢ l2
    · rw [key.1 _ hv ⟨rfl, rfl⟩]
      have hn := col_iff (n e, n 0) n ⟨rfl, rfl⟩
      have := (val _ hv F).1 m (n d)
      rw [← hn] at this
      rw [this]
      have e2 : put (at' (n e, n 0) 0) d (s m) = put n d (s m) := by
        conv_rhs => rw [hn]
        rw [put_put]
      rw [e2]
      by_cases a : n d = s m
      · rw [if_pos a, if_pos a, zero_add, if_neg]
        rw [a]; exact hst m
      · rw [if_neg a, if_neg a]
    · have hz : ∀ y, F (JXI + m, put n d y) = 0 := by
        intro y
        by_contra h
        apply hv
        obtain ⟨p1, p2⟩ := hF m _ h
        rw [put_ne _ _ hd0.symm] at p1
        rw [put_ne _ _ hed] at p2
        exact List.mem_product.2 ⟨mem_rng.2 p2, mem_rng.2 p1⟩
      rw [key.2]
      · have := hz (n d)
        rw [put_same] at this
        rw [this, hz]
        split_ifs <;> simp
      · rintro ⟨b, a⟩ hba ⟨k1, k2⟩
        apply hv
        simp only at k1 k2
        rwa [k1, k2]
  · rintro ⟨b, a⟩ ⟨b', a'⟩ k ⟨k1, k2⟩ ⟨k3, k4⟩
    simp only at k1 k2 k3 k4
    rw [← k1, ← k2, ← k3, ← k4]
  · intro ba hba F k hk
    refine (val ba hba F).2 k fun y h => hk ?_
    rw [h, ← at_put ba]
    exact ⟨at_0 _ _, at_e _ _⟩
  · intro ba hba F G hFG k hk
    have hn := col_iff ba k.2 hk
    by_cases hm : ∃ m : Fin 3, k.1 = JXI + m
    · obtain ⟨m, hm⟩ := hm
      have hk' : k = (JXI + (m : ℕ), put (at' ba 0) d (k.2 d)) := by rw [← hm, ← hn]
      rw [hk', (val ba hba F).1 m, (val ba hba G).1 m]
      have hc : ∀ y, F (JXI + m, put (at' ba 0) d y) = G (JXI + m, put (at' ba 0) d y) := fun y => hFG _ (by
        rw [← at_put ba]; exact ⟨at_0 _ _, at_e _ _⟩)
      rw [hc, hc]
    · have fr : ∀ F : PF K, genWall s t σ g F (at' ba) k = F k := by
        intro F
        unfold genWall
        refine foldl_frame _ _ (fun k => ∃ m : Fin 3, k.1 = JXI + m) (fun m _ F k hk => ?_) F k hm
        rw [wr_other, wr_other]
        · intro h; exact hk ⟨m, by rw [h]⟩
        · intro h; exact hk ⟨m, by rw [h]⟩
      rw [fr, fr, hFG k hk]

/-! ### against a test function -/

/-- the test function pulled back through the folding of one side: what is at `s` counts as `σ` times what is at `t` -/
def pull (w : Bool) (s t : ℤ) (σ : K) (d : Fin 3) (ψ : I3 → K) : I3 → K := fun n =>
  if w = true ∧ n d = s then σ * ψ (put n d t) else ψ n

theorem stored_put {c : Cfg} {n : I3} (hn : Stored c n) (d : Fin 3) {y : ℤ} (hy : -c.ibn d ≤ y ∧ y < c.ldims d + c.ibn d) :
    Stored c (put n d y) := by
  intro e
  by_cases h : e = d
  · subst h; rw [put_self]; exact hy
  · rw [put_ne _ _ h]; exact hn e

/-- the folding of one side, component `m`, in weak form -/
theorem fold_dual (c : Cfg) (d : Fin 3) (s t : ℤ) (σ : K) (hs : -c.ibn d ≤ s ∧ s < c.ldims d + c.ibn d)
    (ht : -c.ibn d ≤ t ∧ t < c.ldims d + c.ibn d) (A B : I3 → K)
    (h : ∀ n, B n = (if n d = s then 0 else A n) + if n d = t then σ * A (put n d s) else 0) (ψ : I3 → K) :
    ∑ n ∈ storedCells c, ψ n * B n = ∑ n ∈ storedCells c, pull true s t σ d ψ n * A n := by
  have e1 : ∀ n, ψ n * B n = (if n d = s then 0 else ψ n * A n) + if n d = t then ψ n * (σ * A (put n d s)) else 0 := by
    intro n; rw [h]; split_ifs <;> ring
  have e2 : ∀ n, pull true s t σ d ψ n * A n =
      (if n d = s then 0 else ψ n * A n) + if n d = s then σ * ψ (put n d t) * A n else 0 := by
    intro n; unfold pull; simp only [true_and]; split_ifs <;> ring
  simp only [e1, e2, Finset.sum_add_distrib]
  congr 1
  rw [← Finset.sum_filter, ← Finset.sum_filter]
  refine Finset.sum_bij' (fun n _ => put n d s) (fun n _ => put n d t) ?_ ?_ ?_ ?_ ?_
  · intro n hn
    rw [Finset.mem_filter, mem_stored] at hn ⊢
    exact ⟨stored_put hn.1 d hs, put_self _ _ _⟩
  · intro n hn
    rw [Finset.mem_filter, mem_stored] at hn ⊢
    exact ⟨stored_put hn.1 d ht, put_self _ _ _⟩
  · intro n hn
    rw [put_put]; exact put_eq (Finset.mem_filter.1 hn).2
  · intro n hn
    rw [put_put]; exact put_eq (Finset.mem_filter.1 hn).2
  · intro n hn
    rw [put_put, put_eq (Finset.mem_filter.1 hn).2]
    ring

/-- where a deposited current may be: two layers of ghost cells, in the stored cells -/
def Near (c : Cfg) (n : I3) : Prop := Stored c n ∧ ∀ e, -2 ≤ n e ∧ n e < c.ldims e + 2

theorem Near.visit {c : Cfg} {n : I3} (h : Near c n) :
    (max (-2) (ibOf c 0) ≤ n 0 ∧ n 0 < min (c.ldims 0 + 2) (ieOf c 0)) ∧ ∀ e, -2 ≤ n e ∧ n e < c.ldims e + 2 := by
  have h1 := h.1 0
  have h2 := h.2 0
  unfold ibOf ieOf
  exact ⟨by omega, h.2⟩

/-- one side of the domain: the effect on a current near the patch, in weak form -/
theorem side_weak {c : Cfg} {g : GridP K} {b : BndP K} (h : FitsB c g b) (h1 : g.inv 1 = false) (h2 : g.inv 2 = false)
    (at_ : Fin 3 → Bool) (bc : Fin 3 → FldBC) (body : GridP K → Fin 3 → PF K → (ℤ → I3) → PF K) (d : Fin 3)
    (s t : Fin 3 → ℤ) (σ : Fin 3 → K) (hb : ∀ F at_, body g d F at_ = genWall s t σ g F at_)
    (hr : g.inv d = false → ∀ m, s m ≠ t m ∧ (-2 ≤ s m ∧ s m < c.ldims d + 2) ∧ (-2 ≤ t m ∧ t m < c.ldims d + 2)) {F F' : PF K}
    (hF : side1 at_ bc (conducting_wall c g (-2) body) (fun _ F => some F) d F = some F')
    (hn : ∀ (m : Fin 3) n, F (JXI + m, n) ≠ 0 → Near c n) :
    (∀ (m : Fin 3) n, F' (JXI + m, n) ≠ 0 → Near c n) ∧ ∀ (m : Fin 3) (ψ : I3 → K),
      ∑ n ∈ storedCells c, ψ n * F' (JXI + m, n) =
      ∑ n ∈ storedCells c, pull (at_ d && (bc d == .conducting)) (s m) (t m) (σ m) d ψ n * F (JXI + m, n) := by
  have triv : ∀ G : PF K, G = F → (at_ d && (bc d == .conducting)) = false →
    (∀ (m : Fin 3) n, G (JXI + m, n) ≠ 0 → Near c n) ∧ ∀ (m : Fin 3) (ψ : I3 → K),
      ∑ n ∈ storedCells c, ψ n * G (JXI + m, n) =
      ∑ n ∈ storedCells c, pull (at_ d && (bc d == .conducting)) (s m) (t m) (σ m) d ψ n * F (JXI + m, n) := by
    rintro G rfl hw
    refine ⟨hn, fun m ψ => ?_⟩
    rw [hw]; unfold pull; simp
  unfold side1 at hF
  by_cases ha : at_ d = true
  swap
  · rw [if_neg ha, Option.some.injEq] at hF
    exact triv _ hF.symm (by simp [ha])
  rw [if_pos ha] at hF
  cases hbc : bc d with
  | periodic => rw [hbc, Option.some.injEq] at hF; rw [← hbc]; exact triv _ hF.symm (by simp [hbc])
  | «open» => rw [hbc, Option.some.injEq] at hF; rw [← hbc]; exact triv _ hF.symm (by simp [hbc])
  | other => rw [hbc] at hF; simp at hF
  | conducting =>
    rw [hbc] at hF
    simp only [ha, Bool.true_and, beq_self_eq_true]
    have hde : ∃ e, (d = 1 ∧ e = 2 ∨ d = 2 ∧ e = 1) ∧ F' = wallLoop c g e (-2) (genWall s t σ g) F := by
      unfold conducting_wall at hF
      split_ifs at hF with k1 k2
      · refine ⟨2, Or.inl ⟨k1, rfl⟩, ?_⟩
        rw [← Option.some.inj hF]
        congr 1
        funext F a
        rw [← hb, k1]
      · refine ⟨1, Or.inr ⟨k2, rfl⟩, ?_⟩
        rw [← Option.some.inj hF]
        congr 1
        funext F a
        rw [← hb, k2]
    obtain ⟨e, hde, rfl⟩ := hde
    have hd : g.inv d = false := by rcases hde with ⟨rfl, -⟩ | ⟨rfl, -⟩ <;> assumption
    have hib := (h.act d hd).1
    have h0 : g.inv 0 = true → ibOf c 0 = 0 ∧ ieOf c 0 = 1 := by
      intro h0
      obtain ⟨a1, -, a3, -⟩ := h.inv 0 h0
      unfold ibOf ieOf
      rw [h.ldims, a1, a3]
      exact ⟨by omega, by omega⟩
    have val := wallLoop_val c g d e hde h1 h2 h0 s t σ (fun m => (hr hd m).1) F (fun m n hne => by
      obtain ⟨v1, v2⟩ := (hn m n hne).visit
      rw [h.ldims] at v1 v2
      exact ⟨v1, v2 e⟩)
    have hst : ∀ m, (-c.ibn d ≤ s m ∧ s m < c.ldims d + c.ibn d) ∧ (-c.ibn d ≤ t m ∧ t m < c.ldims d + c.ibn d) := by
      intro m; have := hr hd m; omega
    constructor
    · intro m n hne
      rw [val m n] at hne
      by_cases k : n d = t m
      · rw [if_pos k] at hne
        by_cases z : F (JXI + m, n) = 0
        · have : F (JXI + m, put n d (s m)) ≠ 0 := by
            intro z'; apply hne; rw [z, z']; simp
          have nr := hn m _ this
          have e1 : n = put (put n d (s m)) d (t m) := by rw [put_put, put_eq k]
          rw [e1]
          refine ⟨stored_put nr.1 d (hst m).2, fun e => ?_⟩
          by_cases he : e = d
          · subst he; rw [put_self]; have := hr hd m; omega
          · rw [put_ne _ _ he]; exact nr.2 e
        · exact hn m n z
      · rw [if_neg k, add_zero] at hne
        refine hn m n fun z => hne ?_
        rw [z]; simp
    · intro m ψ
      exact fold_dual c d (s m) (t m) (σ m) (hst m).1 (hst m).2 (fun n => F (JXI + m, n)) _ (val m) ψ

theorem pull_eq (w : Bool) (s t : ℤ) (σ : K) (d : Fin 3) (ψ : I3 → K) (n : I3) :
    pull w s t σ d ψ n = (if w = true ∧ n d = s then σ else 1) * ψ (put n d (if w = true ∧ n d = s then t else n d)) := by
  unfold pull
  split_ifs
  · rfl
  · rw [put_same, one_mul]

/-- conducting wall at the lower side of a patch -/
def wallLo (c : Cfg) (b : BndP K) (r p : ℕ) (d : Fin 3) : Bool := atLo c r p d && (b.fld_lo d == .conducting)
/-- conducting wall at the upper side of a patch -/
def wallHi (c : Cfg) (b : BndP K) (r p : ℕ) (d : Fin 3) : Bool := atHi c r p d && (b.fld_hi d == .conducting)

/-- the test function pulled back through all sides -/
def pullAll (wL wH : Fin 3 → Bool) (L : I3) (m : Fin 3) (ψ : I3 → K) : I3 → K :=
  let lo := fun d => pull (wL d) (-1) (if m = d then 0 else 1) (if m = d then (-1 : K) else 1) d
  let hi := fun d => pull (wH d) (if m = d then L d else L d + 1) (L d - 1) (if m = d then (-1 : K) else 1) d
  lo 0 (lo 1 (lo 2 (hi 0 (hi 1 (hi 2 ψ)))))

theorem foldJ_weak {c : Cfg} {g : GridP K} {b : BndP K} (h : FitsB c g b) (h1 : g.inv 1 = false) (h2 : g.inv 2 = false)
    {r p : ℕ} {F F' : PF K} (hF : foldJ c g b r p F = some F') (hn : ∀ (m : Fin 3) n, F (JXI + m, n) ≠ 0 → Near c n)
    (m : Fin 3) (ψ : I3 → K) : ∑ n ∈ storedCells c, ψ n * F' (JXI + m, n) =
      ∑ n ∈ storedCells c, pullAll (wallLo c b r p) (wallHi c b r p) c.ldims m ψ n * F (JXI + m, n) := by
  have hL := h.c_pos
  have hib := h.ok.ibn
  have lo := fun d F F' hF hn => side_weak h h1 h2 (atLo c r p) b.fld_lo wallJ_lo d (fun _ => -1)
    (fun m => if m = d then 0 else 1) (fun m => if m = d then -1 else 1) (wallJ_lo_gen g d)
    (fun hd m => by have := hL d; split_ifs <;> omega) (F := F) (F' := F') hF hn
  have hi := fun d F F' hF hn => side_weak h h1 h2 (atHi c r p) b.fld_hi wallJ_hi d
    (fun m => if m = d then g.ldims d else g.ldims d + 1) (fun _ => g.ldims d - 1)
    (fun m => if m = d then -1 else 1) (wallJ_hi_gen g d)
    (fun hd m => by have := hL d; rw [h.ldims] at this ⊢; split_ifs <;> omega) (F := F) (F' := F') hF hn
  unfold foldJ at hF
  rw [sides_eq] at hF
  simp only [bind, Option.bind_eq_some_iff] at hF
  obtain ⟨F3, ⟨F1, k1, F2, k2, k3⟩, hF⟩ := hF
  rw [sides_eq] at hF
  simp only [Option.bind_eq_some_iff] at hF
  obtain ⟨F4, k4, F5, k5, k6⟩ := hF
  obtain ⟨n1, w1⟩ := lo 0 F F1 k1 hn
  obtain ⟨n2, w2⟩ := lo 1 F1 F2 k2 n1
  obtain ⟨n3, w3⟩ := lo 2 F2 F3 k3 n2
  obtain ⟨n4, w4⟩ := hi 0 F3 F4 k4 n3
  obtain ⟨n5, w5⟩ := hi 1 F4 F5 k5 n4
  obtain ⟨-, w6⟩ := hi 2 F5 F' k6 n5
  rw [w6, w5, w4, w3, w2, w1, h.ldims]
  rfl

/-- where the current of a step may be -/
def JIn (c : Cfg) (inv : Fin 3 → Bool) (m : Fin 3) (n : I3) : Prop :=
  ∀ e, (inv e = true → n e = 0) ∧ (inv e = false → -1 ≤ n e ∧ n e ≤ c.ldims e + 1 ∧ (e = m → n e ≤ c.ldims e))

/-- mirror image of a node of a patch at its walls -/
def mirW (wL wH : Fin 3 → Bool) (L : I3) (n : I3) : I3 := fun d => Reflecting.mirrorNC (L d) (wL d) (wH d) (n d)

/-- the heart: differences along the current of the test function pulled back through the folding of the current are
differences of the test function pulled back by the mirror images of the nodes -/
theorem pullAll_diff (wL wH : Fin 3 → Bool) (c : Cfg) (inv : Fin 3 → Bool) (hL : ∀ d, inv d = false → 2 ≤ c.ldims d)
    (hI : ∀ d, inv d = true → c.ldims d = 1) {m : Fin 3} (hm : inv m = false) {n : I3} (hn : JIn c inv m n) (ψ : I3 → K) :
    pullAll wL wH c.ldims m ψ n - pullAll wL wH c.ldims m (fun n => ψ (shift n m 1)) n =
      ψ (mirW wL wH c.ldims n) - ψ (mirW wL wH c.ldims (shift n m 1)) := by
  set fl : I3 := fun e => if wL e = true ∧ n e = -1 then (if m = e then 0 else 1) else n e with hfl
  set cH : Fin 3 → Prop := fun e => wH e = true ∧ fl e = (if m = e then c.ldims e else c.ldims e + 1) with hcH
  set M : I3 := fun e => if wH e = true ∧ fl e = (if m = e then c.ldims e else c.ldims e + 1) then c.ldims e - 1 else fl e with hM
  have all : ∀ φ : I3 → K, pullAll wL wH c.ldims m φ n =
      ((if wL m = true ∧ n m = -1 then -1 else 1) * (if wH m = true ∧ fl m = c.ldims m then -1 else 1)) * φ M := by
    intro φ
    unfold pullAll
    simp only [pull_eq]
    have e1 : put (put (put n 0 (fl 0)) 1 (fl 1)) 2 (fl 2) = fl := by
      funext e; fin_cases e <;> simp [put, Function.update_apply]
    have e2 : put (put (put fl 0 (M 0)) 1 (M 1)) 2 (M 2) = M := by
      funext e; fin_cases e <;> simp [put, Function.update_apply]
    have p0 : ∀ x y : ℤ, put (put n 0 x) 1 y 2 = n 2 := fun x y => by simp [put, Function.update_apply]
    have p1 : ∀ x : ℤ, put n 0 x 1 = n 1 := fun x => by simp [put, Function.update_apply]
    have p2 : ∀ x y : ℤ, put (put fl 0 x) 1 y 2 = fl 2 := fun x y => by simp [put, Function.update_apply]
    have p3 : ∀ x : ℤ, put fl 0 x 1 = fl 1 := fun x => by simp [put, Function.update_apply]
    have f : ∀ e, (if wL e = true ∧ n e = -1 then (if m = e then (0 : ℤ) else 1) else n e) = fl e := fun e => rfl
    have g : ∀ e, (if wH e = true ∧ fl e = (if m = e then c.ldims e else c.ldims e + 1) then c.ldims e - 1 else fl e) = M e :=
      fun e => rfl
    simp only [p0, p1, f, e1, p2, p3, g, e2]
    fin_cases m <;> simp [ite_self] <;> ring
  rw [all, all, ← mul_sub]
  have hmE : ∀ e, e ≠ m → mirW wL wH c.ldims n e = M e := by
    intro e he
    have := (hn e).1
    have := (hn e).2
    simp only [hM, hfl, mirW, Reflecting.mirrorNC, if_neg he.symm]
    cases hi : inv e
    · have := hL e hi
      have := (hn e).2 hi
      cases wL e <;> cases wH e <;> simp only [Bool.false_eq_true, false_and, true_and, if_false] <;> split_ifs <;> omega
    · have := hI e hi
      have := (hn e).1 hi
      cases wL e <;> cases wH e <;> simp only [Bool.false_eq_true, false_and, true_and, if_false] <;> split_ifs <;> omega
  have hsE : ∀ (x : I3) e, e ≠ m → shift x m 1 e = x e := by
    intro x e he; unfold shift; rw [if_neg he]
  have hsm : ∀ (x : I3), shift x m 1 m = x m + 1 := by
    intro x; unfold shift; rw [if_pos rfl]
  have hmm : ((if wL m = true ∧ n m = -1 then (-1 : K) else 1) * (if wH m = true ∧ fl m = c.ldims m then -1 else 1) = 1 ∧
      mirW wL wH c.ldims n m = M m ∧ mirW wL wH c.ldims (shift n m 1) m = M m + 1) ∨
      ((if wL m = true ∧ n m = -1 then (-1 : K) else 1) * (if wH m = true ∧ fl m = c.ldims m then -1 else 1) = -1 ∧
      mirW wL wH c.ldims n m = M m + 1 ∧ mirW wL wH c.ldims (shift n m 1) m = M m) := by
    have a1 := hL m hm
    have a2 := (hn m).2 hm
    simp only [hM, hfl, mirW, Reflecting.mirrorNC, hsm, if_true]
    by_cases k1 : wL m = true ∧ n m = -1
    · right
      have k2 : ¬ (wH m = true ∧ (0 : ℤ) = c.ldims m) := by omega
      simp only [if_pos k1, if_neg k2, mul_one, true_and]
      constructor <;> revert k1 k2 <;> cases wL m <;> cases wH m <;>
          simp only [Bool.false_eq_true, false_and, true_and, if_false] <;> intro k1 k2 <;> first | exact k1.elim | exact k2.elim | (split_ifs <;> omega) | omega
    · simp only [if_neg k1, one_mul]
      by_cases k2 : wH m = true ∧ n m = c.ldims m
      · right
        simp only [if_pos k2, true_and]
        constructor <;> revert k1 k2 <;> cases wL m <;> cases wH m <;>
          simp only [Bool.false_eq_true, false_and, true_and, if_false] <;> intro k1 k2 <;> first | exact k1.elim | exact k2.elim | (split_ifs <;> omega) | omega
      · left
        simp only [if_neg k2, true_and]
        constructor <;> revert k1 k2 <;> cases wL m <;> cases wH m <;>
          simp only [Bool.false_eq_true, false_and, true_and, if_false] <;> intro k1 k2 <;> first | exact k1.elim | exact k2.elim | (split_ifs <;> omega) | trivial
  have ext : ∀ x y : I3, (∀ e, e ≠ m → x e = y e) → x m = y m → x = y := by
    intro x y a b; funext e; by_cases he : e = m
    · rw [he, b]
    · exact a e he
  rcases hmm with ⟨k, a, b⟩ | ⟨k, a, b⟩
  · rw [k, one_mul]
    congr 2
    · exact (ext _ _ hmE a).symm
    · refine (ext _ _ (fun e he => ?_) ?_).symm
      · rw [hsE _ e he, ← hmE e he]
        simp only [mirW, hsE _ e he]
      · rw [b, hsm]
  · rw [k, neg_one_mul, neg_sub]
    congr 2
    · refine (ext _ _ (fun e he => ?_) ?_).symm
      · rw [hsE _ e he, ← hmE e he]
      · rw [a, hsm]
    · refine (ext _ _ (fun e he => ?_) b).symm
      rw [← hmE e he]
      simp only [mirW, hsE _ e he]

end

end Psc.BndFields
