import Verif.Lemmas.OutputPrts

/-! # Particle output file: the index finds every cell's particles (C39) -/

namespace Psc.Props

open Psc.H5

variable {α : Type}

/-- **C39.**  For every division of the domain into non-overlapping patches on any number of ranks, every sub-box, every
selection of particles and every content (particles inside their patches, kinds in range), the output completes; for every cell
in the sub-box and every kind the two index tables delimit exactly the selected particles of that cell and kind in the particle
dataset; every record of the dataset belongs to such a range; and the dataset is a rearrangement of all selected particles in
the sub-box.

Missing for the full property: `lo d ≤ off d` for the patches of rank 0, that is, the sub-box must not start inside or beyond
one of rank 0's patches.  Without it the property fails (`C39_violation`). -/
theorem C39_index_partial (c : Cfg α) (hl : ∀ d, 0 ≤ c.ldims d) (ranks : List (List (Patch α)))
    (hps : ∀ ps ∈ ranks, ∀ p ∈ ps, p.Ok c)
    (hap : ranks.flatten.Pairwise fun p q => ∀ j j', InPatch c j → InPatch c j' →
      (fun d => j d + p.off d) ≠ fun d => j' d + q.off d)
    (hlo : ∀ p ∈ ranks[0]?.getD [], ∀ d, c.lo d ≤ p.off d) :
    ∃ f, output c ranks = some f ∧
      (∀ ps ∈ ranks, ∀ p ∈ ps, ∀ j k, InPatch c j → InBox c p.off j → k < c.nk → ∃ b,
        f.idx_begin (fun d => j d + p.off d - c.lo d) k = some b ∧
        f.idx_end (fun d => j d + p.off d - c.lo d) k = some (b + (group c p j k).length) ∧
        ∀ n < (group c p j k).length, f.prts (b + n) = (group c p j k)[n]?) ∧
      (∀ n < f.n_total, ∃ ps ∈ ranks, ∃ p ∈ ps, ∃ j k b, InPatch c j ∧ InBox c p.off j ∧ k < c.nk ∧
        f.idx_begin (fun d => j d + p.off d - c.lo d) k = some b ∧ b ≤ n ∧ n < b + (group c p j k).length) ∧
      ∃ l : List α, f.n_total = l.length ∧ (∀ n, f.prts n = l[n]?) ∧
        l.Perm (ranks.flatten.flatMap fun p => (selected p).filter fun x => decide (InBox c p.off (cellOf c x))) := by
  obtain ⟨f, h1, h2, h3, h4⟩ := output_spec c hl ranks hps hap hlo
  refine ⟨f, h1, ?_, ?_, ?_⟩
  · intro ps hmem p hp j k hj hb hk
    obtain ⟨r, hr, rfl⟩ := List.getElem_of_mem hmem
    obtain ⟨P1, P2, hP⟩ := List.append_of_mem hp
    obtain ⟨L1, L2, hL⟩ := List.append_of_mem ((mem_cells c hl p.off j k).2 ⟨hj, hb, hk⟩)
    have he := h4 r hr
    have hr' := hP
    rw [hP] at he
    obtain ⟨e1, e2⟩ := Entries.at c _ p P2 P1 _ he L1 (j, k) L2 hL
    refine ⟨_, e1, e2, fun n hn => ?_⟩
    rw [h3]
    have hsplit : ranks = ranks.take r ++ ranks[r] :: ranks.drop (r + 1) := by simp
    have hG : cnt c p L1 + n < (G c p).length := by
      unfold G cnt
      rw [hL, List.flatMap_append, List.flatMap_cons, List.length_append, List.length_append]
      show _ < _ + ((group c p j k).length + _)
      omega
    have hR : (P1.flatMap (G c)).length + (cnt c p L1 + n) < (ranks[r].flatMap (G c)).length := by
      rw [hP, List.flatMap_append, List.flatMap_cons, List.length_append, List.length_append]
      omega
    have s1 := flatMap_get (fun ps => ps.flatMap (G c)) (ranks.take r) (ranks.drop (r + 1)) ranks[r] _ hR
    rw [← hsplit] at s1
    have s2 := flatMap_get (G c) P1 P2 p _ hG
    rw [← hP] at s2
    have s3 := flatMap_get (fun x : I3 × ℕ => group c p x.1 x.2) L1 L2 (j, k) n hn
    rw [← hL] at s3
    rw [show ((ranks.take r).flatMap fun ps => ps.flatMap (G c)).length + (P1.flatMap (G c)).length + cnt c p L1 + n =
      ((ranks.take r).flatMap fun ps => ps.flatMap (G c)).length + ((P1.flatMap (G c)).length + (cnt c p L1 + n)) by omega]
    exact s1.trans (s2.trans s3)
  · intro n hn
    rw [h2] at hn
    obtain ⟨R1, ps, R2, hR, a1, a2⟩ := flatMap_pos (fun ps => ps.flatMap (G c)) ranks n hn
    obtain ⟨P1, p, P2, hP, b1, b2⟩ := flatMap_pos (G c) ps (n - (R1.flatMap fun ps => ps.flatMap (G c)).length) (by omega)
    obtain ⟨L1, x, L2, hL, c1, c2⟩ := flatMap_pos (fun x : I3 × ℕ => group c p x.1 x.2) (cells c p.off)
      (n - (R1.flatMap fun ps => ps.flatMap (G c)).length - (P1.flatMap (G c)).length) (by rw [show ((cells c p.off).flatMap fun x : I3 × ℕ => group c p x.1 x.2) = G c p from rfl]; omega)
    have hx : (x.1, x.2) ∈ cells c p.off := by rw [hL]; simp
    obtain ⟨hj, hb, hk⟩ := (mem_cells c hl p.off x.1 x.2).1 hx
    have hr : R1.length < ranks.length := by rw [hR]; simp
    have he := h4 R1.length hr
    have hg : ranks[R1.length] = ps := by simp [hR]
    have ht : ranks.take R1.length = R1 := by simp [hR]
    rw [hg, ht, hP] at he
    obtain ⟨e1, -⟩ := Entries.at c _ p P2 P1 _ he L1 x L2 hL
    refine ⟨ps, by rw [hR]; simp, p, by rw [hP]; simp, x.1, x.2, _, hj, hb, hk, e1, ?_, ?_⟩ <;>
    · unfold cnt
      omega
  · refine ⟨_, h2, h3, ?_⟩
    have : (ranks.flatMap fun ps => ps.flatMap (G c)) = ranks.flatten.flatMap (G c) := by
      rw [List.flatMap_def, List.flatMap_def, List.map_flatten, List.flatten_flatten, List.map_map]
      rfl
    rw [this]
    apply List.Perm.flatMap_left
    intro p hp
    obtain ⟨ps, h1, h2⟩ := List.mem_flatten.1 hp
    exact G_perm c hl p (hps ps h1 p h2)

/-- particles of the examples: cell along x and kind -/
def exPrtsCfg (lo hi : ℤ) : Cfg (ℤ × ℕ) :=
  { ldims := ![2, 1, 1], lo := ![lo, 0, 0], hi := ![hi, 1, 1], nk := 2, pos := fun p => ![p.1, 0, 0], kind := (·.2) }

/-- two ranks with one patch of two cells each, 3 + 2 particles -/
def exPrtsRanks : List (List (H5.Patch (ℤ × ℕ))) :=
  [[{ off := ![0, 0, 0], prts := [(1, 0), (0, 1), (1, 0)], sel := fun _ => true }],
   [{ off := ![2, 0, 0], prts := [(1, 1), (0, 0)], sel := fun _ => true }]]

/-- the hypotheses are met by two ranks with unsorted particles and the sub-box [0,3) -/
example : (∀ d, 0 ≤ (exPrtsCfg 0 3).ldims d) ∧ (∀ ps ∈ exPrtsRanks, ∀ p ∈ ps, p.Ok (exPrtsCfg 0 3)) ∧
    (exPrtsRanks.flatten.Pairwise fun p q => ∀ j j', InPatch (exPrtsCfg 0 3) j → InPatch (exPrtsCfg 0 3) j' →
      (fun d => j d + p.off d) ≠ fun d => j' d + q.off d) ∧
    (∀ p ∈ exPrtsRanks[0]?.getD [], ∀ d, (exPrtsCfg 0 3).lo d ≤ p.off d) := by
  refine ⟨by decide, by decide +kernel, ?_, by decide⟩
  simp only [exPrtsRanks, List.flatten_cons, List.flatten_nil, List.append_nil, List.cons_append, List.nil_append,
    List.pairwise_cons, List.mem_cons, List.not_mem_nil, or_false, forall_eq, List.Pairwise.nil, and_true, false_imp_iff,
    implies_true]
  intro j j' h h' e
  have e0 := congrFun e 0
  have h0 := (h 0).2
  have h0' := (h' 0).1
  simp [exPrtsCfg] at e0 h0 h0'
  omega

/-- **C39 does not hold in general.**  One rank, one patch of two cells, one particle in cell 1, sub-box [1,2): the table
construction reads `idx[p]` at the cell's position in the patch instead of its position in the sub-box
(output_particles_hdf5_impl.hxx:689-690), so it takes the begin of another kind for the begin of this cell's range, and runs past the
end of the array. -/
theorem C39_violation : ∃ (c : Cfg (ℤ × ℕ)) (p : H5.Patch (ℤ × ℕ)), (∀ d, 0 < c.ldims d ∧ c.lo d < c.hi d) ∧ p.Ok c ∧
    InPatch c ![1, 0, 0] ∧ InBox c p.off ![1, 0, 0] ∧ group c p ![1, 0, 0] 0 = [(1, 0)] ∧
    (∃ m, copyPatch c 0 [] p = some (m, [(1, 0)])) ∧ output c [[p]] = none := by
  refine ⟨exPrtsCfg 1 2, { off := ![0, 0, 0], prts := [(1, 0)], sel := fun _ => true }, by decide, by decide +kernel, by decide,
    by decide, by decide, ?_, ?_⟩
  · have h : ((copyPatch (exPrtsCfg 1 2) 0 [] { off := ![0, 0, 0], prts := [(1, 0)], sel := fun _ => true }).map (·.2)) =
        some [(1, 0)] := by decide +kernel
    rw [Option.map_eq_some_iff] at h
    obtain ⟨⟨m, l⟩, h1, rfl⟩ := h
    exact ⟨m, h1⟩
  · have h : (output (exPrtsCfg 1 2) [[{ off := ![0, 0, 0], prts := [(1, 0)], sel := fun _ => true }]]).isNone = true := by
      decide +kernel
    exact Option.isNone_iff_eq_none.1 h

end Psc.Props
