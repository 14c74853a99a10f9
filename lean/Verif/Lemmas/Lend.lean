import Verif.Spec.Lend
import Verif.Lemmas.Adios2Prts

/-! # Lemmas about loans -/

namespace Psc.Lend

open Psc.A2 (Prt checkInPatchMod nudged check_spec validCellIndex_some)

variable {K : Type} [Field K] [LinearOrder K] [IsStrictOrderedRing K] [FloorRing K] {np : ℕ}

theorem push_conv {e : Env K} (hl : ∀ d, 0 < e.ldims d) {s t : Ty} (ht : Plain t) {q : Prt K} (hq : InPatch e t q)
    (b : Prts K np) (p : Fin np) : pushBack e t b p (conv e s t q) = some (Function.update b p (b p ++ [inTy e t q])) := by
  have h := check_spec (e.dxi t) e.ldims (conv e s t q).x (fun d => (hq d).1) (fun d => (hq d).2) hl
  obtain ⟨i, hi⟩ := validCellIndex_some (e.dxi t) e.ldims _ (fun d => (h.2 d).1) (fun d => (h.2 d).2)
  have hid : t.hasId = false := by rcases ht with rfl | rfl <;> rfl
  simp only [pushBack, h.1, hi, Option.bind_eq_bind, Option.bind_some, Option.pure_def]
  congr 4
  simp only [conv, inTy, hid, Prt.mk.injEq]
  exact ⟨rfl, trivial, trivial, trivial, rfl, rfl⟩

theorem push_all {e : Env K} (hl : ∀ d, 0 < e.ldims d) {s t : Ty} (ht : Plain t) (p : Fin np) (l : List (Prt K)) :
    ∀ b : Prts K np, (∀ q ∈ l, InPatch e t q) →
    l.foldlM (fun b q => pushBack e t b p (conv e s t q)) b = some (Function.update b p (b p ++ l.map (inTy e t))) := by
  induction l with
  | nil => intro b _; simp
  | cons q l ih =>
    intro b h
    rw [List.foldlM_cons, push_conv hl ht (h q (by simp))]
    simp only [Option.bind_eq_bind, Option.bind_some]
    rw [ih _ fun q hq => h q (by simp [hq])]
    simp

theorem copy_patches {e : Env K} (hl : ∀ d, 0 < e.ldims d) {s t : Ty} (ht : Plain t) {g : Prts K np}
    (h : ∀ p, ∀ q ∈ g p, InPatch e t q) (l : List (Fin np)) : l.Nodup → ∀ b : Prts K np,
    l.foldlM (fun b p => (g p).foldlM (fun b q => pushBack e t b p (conv e s t q)) b) b =
      some fun p => if p ∈ l then b p ++ (g p).map (inTy e t) else b p := by
  induction l with
  | nil => intro _ b; simp
  | cons p l ih =>
    intro hn b
    rw [List.nodup_cons] at hn
    rw [List.foldlM_cons, push_all hl ht p _ _ (h p)]
    simp only [Option.bind_eq_bind, Option.bind_some]
    rw [ih hn.2]
    congr 1
    funext r
    by_cases hr : r = p
    · subst hr; simp [hn.1]
    · simp [hr, Function.update_of_ne]

theorem copy_spec {e : Env K} (hl : ∀ d, 0 < e.ldims d) {x y : Cont K np} (ht : Plain y.ty)
    (h : ∀ p, ∀ q ∈ x.prts p, InPatch e y.ty q) :
    copy e x y = some { y with prts := fun p => (x.prts p).map (inTy e y.ty) } := by
  rw [copy, copy_patches hl ht h _ (List.nodup_finRange np)]
  simp

theorem convert_spec {e : Env K} (hl : ∀ d, 0 < e.ldims d) {x y : Cont K np} (hx : Plain x.ty) (hy : Plain y.ty)
    (hxy : x.ty ≠ y.ty) (hg : x.grid = y.grid) (h : ∀ p, ∀ q ∈ x.prts p, InPatch e y.ty q) :
    convert e x y = some (x, { y with prts := fun p => (x.prts p).map (inTy e y.ty) }) := by
  have hc := copy_spec hl hy h
  rw [convert, if_pos hg]
  rcases hx with hx | hx <;> rcases hy with hy | hy
  · exact absurd (hx.trans hy.symm) hxy
  · have h1 : (convertTo x.ty).lookup y.ty = some (.copyTo .single .double) := by rw [hx, hy]; rfl
    rw [h1]
    show Fn.call e _ x y = _
    rw [Fn.call, if_pos ⟨hx, hy⟩, hc]
    rfl
  · have h1 : (convertTo x.ty).lookup y.ty = none := by rw [hx]; rfl
    have h2 : (convertFrom y.ty).lookup x.ty = some (.copyFrom .single .double) := by rw [hx, hy]; rfl
    rw [h1]
    simp only [h2]
    rw [Fn.call, if_pos ⟨hx, hy⟩, hc]
    rfl
  · exact absurd (hx.trans hy.symm) hxy

theorem convert_unknown (e : Env K) {x y : Cont K np} (hxy : x.ty ≠ y.ty) (h : ¬(Plain x.ty ∧ Plain y.ty)) : convert e x y = none := by
  rw [convert]
  split
  · rcases x with ⟨tx, gx, px⟩
    rcases y with ⟨ty, gy, py⟩
    rcases tx <;> rcases ty <;> first | rfl | (exact absurd rfl hxy) | (exact absurd ⟨by simp [Plain], by simp [Plain]⟩ h)
  · rfl

theorem get_same (e : Env K) {m : Mem K np} {a : ℕ} {c : Cont K np} (hc : m[a]?.join = some c) (dont : Bool) :
    getAs e m a c.ty dont = some (m, a) := by
  simp [getAs, hc]

theorem lt_of_some {m : Mem K np} {a : ℕ} {c : Cont K np} (hc : m[a]?.join = some c) : a < m.length := by
  by_contra hh
  rw [List.getElem?_eq_none (by omega)] at hc
  cases hc

theorem get?_of_join {m : Mem K np} {a : ℕ} {c : Cont K np} (hc : m[a]?.join = some c) : m[a]? = some (some c) := by
  match h : m[a]?, hc with
  | some (some d), hc => simp only [h, Option.join_some] at hc; rw [hc]
  
theorem set_self {m : Mem K np} {a : ℕ} {c : Cont K np} (hc : m[a]?.join = some c) : m.set a (some c) = m := by
  have := get?_of_join hc
  apply List.ext_getElem?
  intro i
  rw [List.getElem?_set]
  split
  · next h => subst h; rw [if_pos (lt_of_some hc), this]
  · rfl

theorem get_other {e : Env K} (hl : ∀ d, 0 < e.ldims d) {m : Mem K np} {a : ℕ} {c : Cont K np} (hc : m[a]?.join = some c)
    {t : Ty} (hct : c.ty ≠ t) (h1 : Plain c.ty) (h2 : Plain t) (h : ∀ p, ∀ q ∈ c.prts p, InPatch e t q) :
    getAs e m a t false = some (m ++ [some ⟨t, c.grid, fun p => (c.prts p).map (inTy e t)⟩], m.length) := by
  have := convert_spec (y := ⟨t, c.grid, fun _ => []⟩) hl h1 h2 hct rfl h
  simp only [getAs, hc, Option.bind_eq_bind, Option.bind_some, if_neg hct, this, Option.pure_def]
  rw [set_self hc]
  rfl

/-- one loan -/
theorem runLoan_spec {e : Env K} (hl : ∀ d, 0 < e.ldims d) {m : Mem K np} {a : ℕ} {c : Cont K np} (hc : m[a]?.join = some c)
    (l : Loan K np) (h : l.Ok e c.ty c.prts) : ∃ k, runLoan e m a l =
      some (m.set a (some { c with prts := afterLoan e c.ty l c.prts }) ++ List.replicate k none) := by
  have hlt := lt_of_some hc
  by_cases ht : c.ty = l.ty
  · refine ⟨0, ?_⟩
    have h1 : (m.set a (some { c with prts := l.f c.prts }))[a]?.join = some { c with prts := l.f c.prts } := by
      rw [List.getElem?_set_self hlt]; rfl
    rw [runLoan, ← ht, get_same e hc]
    simp only [Option.bind_eq_bind, Option.bind_some, hc, putAs, h1, if_true, Option.pure_def, afterLoan, if_pos ht,
      List.replicate_zero, List.append_nil]
  · obtain h | ⟨h1, h2, h3, h4⟩ := h
    · exact absurd h ht
    refine ⟨1, ?_⟩
    have hs : (fun p => (c.prts p).map (inTy e l.ty)) = seen e c.ty l.ty c.prts := by rw [seen, if_neg ht]
    rw [runLoan, get_other hl hc ht h1 h2 h3, hs]
    have g1 : (m ++ [some (⟨l.ty, c.grid, seen e c.ty l.ty c.prts⟩ : Cont K np)])[m.length]?.join =
        some ⟨l.ty, c.grid, seen e c.ty l.ty c.prts⟩ := by rw [List.getElem?_concat_length]; rfl
    have g2 : ∀ o : Option (Cont K np), (m ++ [some (⟨l.ty, c.grid, seen e c.ty l.ty c.prts⟩ : Cont K np)]).set m.length o = m ++ [o] := by
      intro o; rw [List.set_append_right _ _ (le_refl _)]; simp
    simp only [Option.bind_eq_bind, Option.bind_some, g1, g2]
    have g3 : ∀ o : Option (Cont K np), (m ++ [o])[a]?.join = some c := by
      intro o; rw [List.getElem?_append_left hlt, hc]
    have g4 : ∀ o : Cont K np, (m ++ [some o])[m.length]?.join = some o := by
      intro o; rw [List.getElem?_concat_length]; rfl
    have g5 : ∀ o o' : Option (Cont K np), (m ++ [o]).set m.length o' = m ++ [o'] := by
      intro o o'; rw [List.set_append_right _ _ (le_refl _)]; simp
    simp only [putAs, g3, g4, Option.bind_eq_bind, Option.bind_some, if_neg (Ne.symm ht), Option.pure_def]
    cases hd : l.dont
    · have := convert_spec (x := ⟨l.ty, c.grid, l.f (seen e c.ty l.ty c.prts)⟩) (y := c) hl h2 h1 (Ne.symm ht) rfl (h4 hd)
      rw [this]
      simp only [Bool.false_eq_true, if_false, Option.map_some, Option.bind_some, g5]
      rw [List.set_append_left _ _ hlt, List.set_append_right _ _ (by simp)]
      simp [afterLoan, ht, hd]
    · simp only [if_true, Option.bind_some, g5, afterLoan, if_neg ht, hd]
      rw [set_self hc]
      rfl

theorem runLoans_spec {e : Env K} (hl : ∀ d, 0 < e.ldims d) {a : ℕ} (ls : List (Loan K np)) : ∀ {m : Mem K np} {c : Cont K np},
    m[a]?.join = some c → LoansOk e c.ty ls c.prts → ∃ k, runLoans e a m ls =
      some (m.set a (some { c with prts := afterLoans e c.ty ls c.prts }) ++ List.replicate k none) := by
  induction ls with
  | nil => intro m c hc _; exact ⟨0, by simp [runLoans, afterLoans, set_self hc]⟩
  | cons l ls ih =>
    intro m c hc h
    have hlt := lt_of_some hc
    obtain ⟨k, hk⟩ := runLoan_spec hl hc l h.1
    rw [runLoans, hk, Option.bind_some]
    obtain ⟨k', hk'⟩ := ih (c := { c with prts := afterLoan e c.ty l c.prts })
      (m := m.set a (some { c with prts := afterLoan e c.ty l c.prts }) ++ List.replicate k none)
      (by rw [List.getElem?_append_left (by simpa using hlt), List.getElem?_set_self hlt]; rfl) h.2
    refine ⟨k + k', ?_⟩
    rw [hk', List.set_append_left _ _ (by simpa using hlt), List.set_set, List.append_assoc, ← List.replicate_add]
    rfl

theorem others_mem {m : Mem K np} {a k : ℕ} {o : Option (Cont K np)} (ha : a < m.length) (b : ℕ) (hb : b ≠ a) :
    (m.set a o ++ List.replicate k none)[b]?.join = m[b]?.join := by
  by_cases h : b < m.length
  · rw [List.getElem?_append_left (by simpa using h), List.getElem?_set_ne (Ne.symm hb)]
  · rw [List.getElem?_append_right (by simp; omega), List.getElem?_eq_none (by omega : m.length ≤ b), List.getElem?_replicate]
    split <;> rfl

theorem inTy_fits {e : Env K} {t : Ty} {q : Prt K} (hq : Fits e t q)
    (hi : ∀ d, e.rnd t (q.x d) * e.rnd t (e.dxInv d) < e.ldims d) : inTy e t q = q := by
  obtain ⟨h1, h2, h3, h4, h5⟩ := hq
  rcases q with ⟨x, u, w, k, id, tag⟩
  simp only at h1 h2 h3 h4 h5 hi
  simp only [inTy, Prt.mk.injEq]
  refine ⟨?_, funext h2, h3, trivial, h4.symm, h5.symm⟩
  funext d
  rw [if_neg (ne_of_lt (hi d)), h1]

theorem count_zero (g : Prts K np) (f : Prt K → Bool) : (List.finRange np).foldl
    (fun n p => (g p).foldl (fun n q => if f q then n + 1 else n) n) 0 = 0 ↔ ∀ p, ∀ q ∈ g p, f q = false := by
  have h1 : ∀ (l : List (Prt K)) (n : ℕ), l.foldl (fun n q => if f q then n + 1 else n) n = n + l.countP f := by
    intro l
    induction l with
    | nil => simp
    | cons q l ih =>
      intro n
      rw [List.foldl_cons, ih, List.countP_cons]
      split <;> omega
  have h2 : ∀ (l : List (Fin np)) (n : ℕ), l.foldl (fun n p => (g p).foldl (fun n q => if f q then n + 1 else n) n) n = 0 ↔
      n = 0 ∧ ∀ p ∈ l, ∀ q ∈ g p, f q = false := by
    intro l
    induction l with
    | nil => simp
    | cons p l ih =>
      intro n
      rw [List.foldl_cons, ih, h1]
      simp only [Nat.add_eq_zero_iff, List.countP_eq_zero, List.mem_cons, forall_eq_or_imp, Bool.not_eq_true]
      tauto
  rw [h2]
  simp

end Psc.Lend
