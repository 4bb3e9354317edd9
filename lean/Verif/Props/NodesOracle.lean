import Verif.Model.NodesOracle
import Verif.Props.Nodes
import Verif.Props.Oracle
/-
C162 when blocks use the oracle: nodes need not agree; they do if no query uses the same oracle request at the same time.
-/
namespace Verif.Props.NodesOracle
open Verif Verif.Text Verif.Query Verif.World Verif.Nodes Verif.Oracle Verif.NodesOracle Verif.Props.Oracle Verif.Props.Nodes

variable {S Resp : Type}

/-- The same executions in the same order do the same to the objects of a path and to each other. -/
theorem run_same (w : Oracle.World S Resp) (p : Str) (used : Nat) : ∀ (l : List Nat) (n m : Node S Resp),
    (∀ j ∈ l, j < used ∧ (n.threads j).path = p) → n.cells p = m.cells p →
    (∀ i, i < used → n.threads i = m.threads i) →
    ∀ i, i < used → (n.run w l).threads i = (m.run w l).threads i
  | [], _, _, _, _, ht => ht
  | j :: l, n, m, hl, hc, ht => by
    obtain ⟨hj, hp⟩ := hl j (by simp)
    have hjt := ht j hj
    have hp' : (m.threads j).path = p := by rw [← hjt]; exact hp
    refine run_same w p used l (n.step w j) (m.step w j) ?_ ?_ ?_
    · intro k hk
      rw [node_step_path]
      exact hl k (List.mem_cons_of_mem _ hk)
    · simp only [Node.step, ← hjt, hp, if_true, hc]
    · intro i hi
      simp only [Node.step, ← hjt, hp, hc]
      split
      · rfl
      · exact ht i hi

/-- Executions on a path that no other execution uses are told the same on both nodes. -/
theorem answers_same (w : Oracle.World S Resp) (used : Nat) (n n' : Node S Resp) (sched sched' : List Nat)
    (hthreads : ∀ i, i < used → n.threads i = n'.threads i)
    (hcells : ∀ i, i < used → n.cells (n.threads i).path = n'.cells (n.threads i).path)
    (halone : ∀ j ∈ sched, used ≤ j → ∀ i, i < used → (n.threads j).path ≠ (n.threads i).path)
    (halone' : ∀ j ∈ sched', used ≤ j → ∀ i, i < used → (n'.threads j).path ≠ (n'.threads i).path)
    (horder : sched.filter (fun j => decide (j < used)) = sched'.filter (fun j => decide (j < used)))
    (i : Nat) (hi : i < used) : answers w n sched i = answers w n' sched' i := by
  have hti := hthreads i hi
  have f : ∀ (m : Node S Resp) (s : List Nat), (m.threads i).path = (n.threads i).path →
      (∀ j, j < used → m.threads j = n.threads j) →
      (∀ j ∈ s, used ≤ j → (m.threads j).path ≠ (m.threads i).path) →
      s.filter (fun j => decide ((m.threads j).path = (m.threads i).path))
        = (s.filter (fun j => decide (j < used))).filter (fun j => decide ((n.threads j).path = (n.threads i).path)) := by
    intro m s hm hmt ha
    rw [List.filter_filter]
    apply List.filter_congr
    intro j hj
    by_cases h : j < used
    · rw [hm, hmt j h]; simp [h]
    · have := ha j hj (by omega)
      simp [h, this]
  have e1 := f n sched rfl (fun _ _ => rfl) (fun j hj hu => halone j hj hu i hi)
  have e2 := f n' sched' (by rw [hti]) (fun j hj => (hthreads j hj).symm) (fun j hj hu => halone' j hj hu i hi)
  unfold answers
  rw [C146_paths w n sched i, C146_paths w n' sched' i, e1, e2, horder]
  congr 2
  refine run_same w (n.threads i).path used _ n n' ?_ (hcells i hi) hthreads i hi
  intro j hj
  simp only [List.mem_filter, decide_eq_true_eq] at hj
  exact ⟨hj.1.2, hj.2⟩

/-- **C162** (blocks that use the oracle). Two nodes on which the oracle executions of the blocks are the same, made in the
same order, agree on the state after every block, whatever else they do, if no query uses a path of the oracle that a
block uses. -/
theorem C162_oracle (keccak : Bytes → Hash) (w : Oracle.World S Resp) (d : Store) (b : Asking) (used : Nat)
    (m m' : Machine S Resp)
    (hb : ∀ f g : Nat → Option (Option Str), (∀ i, i < used → f i = g i) → b f = b g)
    (hthreads : ∀ i, i < used → m.node.threads i = m'.node.threads i)
    (hcells : ∀ i, i < used → m.node.cells (m.node.threads i).path = m'.node.cells (m.node.threads i).path)
    (halone : ∀ j ∈ m.sched, used ≤ j → ∀ i, i < used → (m.node.threads j).path ≠ (m.node.threads i).path)
    (halone' : ∀ j ∈ m'.sched, used ≤ j → ∀ i, i < used → (m'.node.threads j).path ≠ (m'.node.threads i).path)
    (horder : m.sched.filter (fun j => decide (j < used)) = m'.sched.filter (fun j => decide (j < used))) :
    m.chain keccak w d b = m'.chain keccak w d b := by
  unfold Machine.chain
  rw [hb _ _ (fun i hi => answers_same w used m.node m'.node m.sched m'.sched hthreads hcells halone halone' horder i hi)]
  apply C162_agree
  simp [List.map_map, Function.comp_def]

/-- **C162** (what blocks are told). An execution of a block whose path nobody else uses is told what the oracle answers to its own text
on its own state - an error if the oracle has none - on every node and whatever the schedule. -/
theorem C162_told (w : Oracle.World S Resp) (n : Node S Resp) (sched : List Nat) (i : Nat)
    (hown : ∀ j ∈ sched, j ≠ i → (n.threads j).path ≠ (n.threads i).path) (hmoves : sched.count i = 7)
    (hstart : (n.threads i).at_ = .start) (hclean : (n.cells (n.threads i).path).req = noFields) :
    answers w n sched i = some (says w (n.threads i).path (n.threads i).txt (n.threads i).state) := by
  have h := C146_own_objects w n sched i hown hmoves hstart hclean
  unfold answers
  generalize ((n.run w sched).threads i).at_ = a at h ⊢
  generalize says w (n.threads i).path (n.threads i).txt (n.threads i).state = r at h ⊢
  cases h <;> rfl

/-! ### Without that -/

/-- A block that stores 9 if the oracle told its execution 0 "18" and 8 otherwise. -/
def toyAsking : Asking := fun f => [{
  len := 2
  prog := fun v => if v.started = 0 then .start
    else .perform 0 (.setState Addr.zero Hash.zero (Hash.ofNat (if f 0 = some (some ['1', '8']) then 9 else 8))) }]

/-- A node that asks the oracle at height 6 in its block and, for a query, at height 5. -/
def toyMachine (sched : List Nat) : Machine Nat Nat := ⟨0, fun _ => quiet, toyNode 3 3 6 5, sched⟩

/-- **C162 is violated** by blocks that use the oracle: two nodes start from the same state and execute the same block; one
of them serves an `eth_call` to the oracle meanwhile. The contract in the block is told another price there and stores
another value: the nodes no longer agree, and the one that served the query halts. -/
theorem C162_oracle_violated : ∃ (sched : List Nat),
    let m := toyMachine sched
    let m' := toyMachine (sched.filter fun j => decide (j < 1))
    (m.chain (fun _ => Hash.zero) toyWorld toyStore toyAsking).map (fun r => r.1.vm (stateKey Addr.zero Hash.zero))
      = [some (Hash.ofNat 8).bytes] ∧
    (m'.chain (fun _ => Hash.zero) toyWorld toyStore toyAsking).map (fun r => r.1.vm (stateKey Addr.zero Hash.zero))
      = [some (Hash.ofNat 9).bytes] :=
  ⟨[0,0,0, 1,1,1, 0, 1, 0, 1, 0, 1, 0, 1], by decide +kernel, by decide +kernel⟩

/-- A node that serves the price list while its block asks for a price. -/
def listing : Machine Nat Nat :=
  { ctr := 0, lives := fun _ => busy
    node := { toyNode 3 3 6 5 with
      threads := fun i => if i = 0 then ⟨getPrice, [([1], [3])], 6, .start⟩
        else ⟨"/connect.oracle.v2.Query/GetPrices".toList, [([1], [3])], 5, .start⟩ }
    sched := [0,1,0,1,1,0,0,0,1,0,1,0,1,1] }

/-- The hypotheses of `C162_oracle` are met by that node and one that serves nothing. -/
example : listing.chain (fun _ => Hash.zero) toyWorld toyStore toyAsking
      = (toyMachine (List.replicate 7 0)).chain (fun _ => Hash.zero) toyWorld toyStore toyAsking := by
  have hone : ∀ {i : Nat}, i < 1 → i = 0 := fun h => by omega
  have ht : listing.node.threads 0 = (toyMachine (List.replicate 7 0)).node.threads 0 := by
    simp only [listing, toyMachine, toyNode, if_true]
  have hp : (listing.node.threads 0).path = getPrice := by simp only [listing, if_true]
  refine C162_oracle _ toyWorld toyStore toyAsking 1 _ _ ?_ ?_ ?_ ?_ ?_ (by decide)
  · intro f g h
    simp only [toyAsking, h 0 (by decide)]
  · intro i hi
    rw [hone hi]; exact ht
  · intro i _
    simp only [listing, toyMachine, toyNode]
  · intro j _ hu i hi
    have h1 : (listing.node.threads j).path = "/connect.oracle.v2.Query/GetPrices".toList := by
      simp only [listing, if_neg (Nat.pos_iff_ne_zero.mp hu)]
    rw [hone hi, h1, hp]
    decide
  · intro j hj hu
    rw [show (toyMachine (List.replicate 7 0)).sched = List.replicate 7 0 from rfl] at hj
    have := List.eq_of_mem_replicate hj
    omega

example : ((toyMachine (List.replicate 7 0)).chain (fun _ => Hash.zero) toyWorld toyStore toyAsking).map
    (fun r => r.1.vm (stateKey Addr.zero Hash.zero)) = [some (Hash.ofNat 9).bytes] := by decide +kernel

end Verif.Props.NodesOracle
