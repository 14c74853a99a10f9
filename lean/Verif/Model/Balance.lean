import Verif.Model.Domain

/-!
# Load balancing (src/libpsc/psc_balance/psc_balance_impl.hxx)

Loads are elements of an ordered field.  `int`s that cannot become negative are `ℕ`, and differences are written as
sums where they could.
-/

namespace Psc.Balance

open Domain

section mapping

variable {K : Type} [Field K] [LinearOrder K]

/-- the `for (;;)` loop of `best_mapping_recursive`, psc_balance_impl.hxx:119-135, on the loads from `patch_begin`
to the end of the vector; `none`: reads `load_by_patch` beyond its end -/
def scan (load_target : K) : List K → K → ℕ → Option ℕ
  | [], _, _ => none
  | x :: l, load, patch_middle =>
    let prev_load := load
    let load := load + x
    let patch_middle := patch_middle + 1
    if load > load_target then
      let above := load - load_target
      let below := load_target - prev_load
      some (if below < above ∧ patch_middle ≠ 0 then patch_middle - 1 else patch_middle)
    else scan load_target l load patch_middle

/-- `best_mapping_recursive`, psc_balance_impl.hxx:99-151; `none`: an assertion fails, a read beyond the end, or
(no ranks at all) unbounded recursion -/
def best_mapping_recursive (loads : List K) (n_patches_by_proc : List ℕ)
    (proc_begin proc_end patch_begin patch_end : ℕ) : Option (List ℕ) :=
  if patch_end + proc_begin < proc_end + patch_begin then none
  else if h1 : proc_end = proc_begin + 1 then some (n_patches_by_proc.set proc_begin (patch_end - patch_begin))
  else if h : proc_end ≤ proc_begin then none
  else
    let proc_middle := (proc_begin + proc_end) / 2
    let load_total := ((loads.drop patch_begin).take (patch_end - patch_begin)).sum
    let load_target := (load_total * ((proc_middle - proc_begin : ℕ) : K)) / ((proc_end - proc_begin : ℕ) : K)
    match scan load_target (loads.drop patch_begin) 0 patch_begin with
    | none => none
    | some patch_middle =>
      let patch_middle := if patch_middle + proc_begin < proc_middle + patch_begin then
        patch_begin + (proc_middle - proc_begin) else patch_middle
      let patch_middle := if patch_end + proc_middle < proc_end + patch_middle then
        patch_end - (proc_end - proc_middle) else patch_middle
      match best_mapping_recursive loads n_patches_by_proc proc_begin proc_middle patch_begin patch_middle with
      | none => none
      | some arr => best_mapping_recursive loads arr proc_middle proc_end patch_middle patch_end
termination_by proc_end - proc_begin
decreasing_by all_goals omega

/-- `best_mapping`, psc_balance_impl.hxx:153-161 -/
def best_mapping (n_procs : ℕ) (loads : List K) : Option (List ℕ) :=
  best_mapping_recursive loads (List.replicate n_procs 0) 0 n_procs 0 loads.length

end mapping

/-! ## moving the patches -/

variable {α : Type}

/-- `send_info_` of local patch `p` on rank `r`, psc_balance_impl.hxx:365-372: new rank and patch -/
def send_info (old new : Decomp) (r p : ℕ) : Option (ℕ × ℕ) := new.owner (old.idx3 r p)

/-- `recv_info_` of new local patch `p` on rank `r`, psc_balance_impl.hxx:374-381: old rank and patch -/
def recv_info (old new : Decomp) (r p : ℕ) : Option (ℕ × ℕ) := old.owner (new.idx3 r p)

/-- `pi_to_patch` of the patches rank `r` sends to rank `r'`, psc_balance_impl.hxx:442-455.  Simplification: indexed
by the rank instead of by the compact number `ri` of the rank. -/
def send_pi (old new : Decomp) (r r' : ℕ) : List ℕ :=
  (List.range (old.nr_patches r)).filter fun p => (send_info old new r p).map Prod.fst == some r'

/-- `pi_to_patch` of the patches rank `r` receives from rank `r'`, psc_balance_impl.hxx:469-482 -/
def recv_pi (old new : Decomp) (r r' : ℕ) : List ℕ :=
  (List.range (new.nr_patches r)).filter fun p => (recv_info old new r p).map Prod.fst == some r'

/-- a posted send -/
structure Msg (β : Type) where
  /-- destination rank -/
  dst : ℕ
  /-- tag -/
  tag : ℕ
  /-- contents -/
  buf : β

/-- what a receive of rank `r` with this tag gets from the sends a rank has posted; `none` unless exactly one
matches -/
def receive {β : Type} (sent : List (Msg β)) (r tag : ℕ) : Option β :=
  match sent.filter fun m => m.dst == r && m.tag == tag with
  | [m] => some m.buf
  | _ => none

/-- the sends of `new_n_prts` on rank `r`, psc_balance_impl.hxx:514-532, one message with tag 10 per other rank -/
def nprts_sends (old new : Decomp) (size : ℕ → ℕ → ℕ) (n_procs r : ℕ) : List (Msg (List ℕ)) :=
  (List.range n_procs).filterMap fun r' =>
    if send_pi old new r r' = [] ∨ r' = r then none
    else some ⟨r', 10, (send_pi old new r r').map (size r)⟩

/-- the number of particles of new patch `p` on rank `r` from `new_n_prts`, psc_balance_impl.hxx:485-569.
`size r p`: particles in old patch `p` of rank `r`.  `none`: no matching message, a message of the wrong length, or
a failed assertion. -/
def new_n_prts (old new : Decomp) (size : ℕ → ℕ → ℕ) (n_procs r p : ℕ) : Option ℕ := do
  let r' ← (recv_info old new r p).map Prod.fst
  let pi := (recv_pi old new r r').idxOf p
  let buf ← if r' = r then some ((send_pi old new r r).map (size r)) else receive (nprts_sends old new size n_procs r') r 10
  if buf.length = (recv_pi old new r r').length then buf[pi]? else none

/-- the sends of `communicate_particles` on rank `r`, psc_balance_impl.hxx:619-635 -/
def prts_sends (old new : Decomp) (prts : ℕ → ℕ → List α) (n_procs r : ℕ) : List (Msg (List α)) :=
  (List.range n_procs).flatMap fun r' =>
    if r' = r then []
    else (send_pi old new r r').zipIdx.map fun c => ⟨r', c.2, prts r c.1⟩

/-- particles of new patch `p` on rank `r` after `communicate_particles`, psc_balance_impl.hxx:571-670.
`none`: no matching message or one of the wrong length. -/
def communicate_particles (old new : Decomp) (prts : ℕ → ℕ → List α) (n_procs r p : ℕ) : Option (List α) := do
  let n ← new_n_prts old new (fun r p => (prts r p).length) n_procs r p
  let (r', p') ← recv_info old new r p
  let buf ← if r' = r then some (prts r p')
    else receive (prts_sends old new prts n_procs r') r ((recv_pi old new r r').idxOf p)
  if buf.length = n then some buf else none

/-- one turn of the loop posting the sends of `communicate_fields` on rank `r`, psc_balance_impl.hxx:686-697; the
state is the array of counters and the messages -/
def flds_sends_step (old new : Decomp) (flds : ℕ → ℕ → α) (r : ℕ) (s : (ℕ → ℕ) × List (Msg α)) (p : ℕ) :
    (ℕ → ℕ) × List (Msg α) :=
  match (send_info old new r p).map Prod.fst with
  | none => s
  | some r' => if r' = r then s
    else (Function.update s.1 r' (s.1 r' + 1), s.2 ++ [⟨r', s.1 r', flds r p⟩])

/-- the loop posting the sends of `communicate_fields` on rank `r`, psc_balance_impl.hxx:685-697 -/
def flds_sends (old new : Decomp) (flds : ℕ → ℕ → α) (r : ℕ) : List (Msg α) :=
  ((List.range (old.nr_patches r)).foldl (flds_sends_step old new flds r) (fun _ => 0, [])).2

/-- the tag of the receive for new patch `p` on rank `r`, psc_balance_impl.hxx:701-716: the counter of its old
rank, raised once for every earlier patch from there -/
def flds_recv_tag (old new : Decomp) (r p : ℕ) (r' : ℕ) : ℕ :=
  ((List.range p).foldl (fun (s : ℕ → ℕ) q =>
    match (recv_info old new r q).map Prod.fst with
    | none => s
    | some r' => if r' = r then s else Function.update s r' (s r' + 1)) (fun _ => 0)) r'

/-- fields of new patch `p` on rank `r` after `communicate_fields`, psc_balance_impl.hxx:672-745.  All patches have
the same size. -/
def communicate_fields (old new : Decomp) (flds : ℕ → ℕ → α) (r p : ℕ) : Option α := do
  let (r', p') ← recv_info old new r p
  if r' = r then some (flds r p') else receive (flds_sends old new flds r') r (flds_recv_tag old new r p r')

/-- `balance`, psc_balance_impl.hxx:857-1019: new decomposition, particles and fields of every (rank, patch).  The
new grid has the same patch grid, boundary conditions and curve. -/
def balance {K : Type} [Field K] [LinearOrder K] {β : Type} (old : Decomp) (loads : List K)
    (prts : ℕ → ℕ → List α) (flds : ℕ → ℕ → β) :
    Option (Decomp × (ℕ → ℕ → Option (List α)) × (ℕ → ℕ → Option β)) :=
  match best_mapping old.counts.length loads with
  | none => none
  | some counts =>
    if counts = old.counts then some (old, fun r p => some (prts r p), fun r p => some (flds r p))
    else
      let new : Decomp := { old with counts := counts }
      some (new, communicate_particles old new prts old.counts.length, communicate_fields old new flds)

end Psc.Balance
