/-!
# Device memory and kernels

Model of what a CUDA kernel may do to the search state of `gpu_raptor`
(`include/nigiri/routing/gpu/device_times.h`, `device_bitvec.cuh`): cells that are only ever lowered by
`atomicMin` on packed words (device_times.h:76-86), plain loads of such cells (device_times.h:42-59) and bits that are
only ever set by `atomicOr` (device_bitvec.cuh:36-38).

A kernel is a pool of thread programs; its execution is *any* interleaving of their memory operations.  Loads are
weak: a load may return any value between the present value of the cell and its value at the launch of the
kernel (plain loads are not ordered with the atomics of other threads).  This contains all sequentially consistent
executions and every stale value a cache may hold, and even values that were never stored.  Kernels of one stream
run one after the other, so the launch of the next kernel is a barrier (raptor.cu:895-953).

A packed word is modelled as a pair (time, breadcrumb) in lexicographic order of oriented time; that the 64 bit
words are exactly this is C86.
-/

namespace Nigiri.Gpu

abbrev Loc := Nat

/-- A packed word, device_times.h:11-17: oriented time (smaller is better) and breadcrumb. -/
structure Word where
  t : Int
  bc : Nat
deriving DecidableEq, Repr

/-- Comparison of packed words. -/
def Word.le (a b : Word) : Prop := a.t < b.t ∨ (a.t = b.t ∧ a.bc ≤ b.bc)

instance (a b : Word) : Decidable (a.le b) := by unfold Word.le; infer_instance

/-- The value stored by `atomicMin`, device_times.h:76-86. -/
def Word.min (a b : Word) : Word := if b.le a then b else a

/-- The cells: `round_times_[k][l]`, `best_[l]`, `tmp_[l]`, `time_at_dest_[i]` (raptor_impl.cuh:1110-1150). -/
inductive Addr
  | round (k : Nat) (l : Loc)
  | best (l : Loc)
  | tmp (l : Loc)
  | tad (i : Nat)
deriving DecidableEq, Repr

/-- The memory: packed words and `station_mark_`. -/
structure Mem where
  val : Addr → Word
  mark : Loc → Bool

/-- `update_min`, device_times.h:76-86. -/
def Mem.amin (m : Mem) (a : Addr) (w : Word) : Mem := { m with val := fun b => if b = a then (m.val a).min w else m.val b }

/-- `device_bitvec::mark`, device_bitvec.cuh:36-38. -/
def Mem.setMark (m : Mem) (l : Loc) : Mem := { m with mark := fun l' => if l' = l then true else m.mark l' }

/-- The program of one thread. -/
inductive Prog
  | ret
  | read (a : Addr) (k : Int → Prog)
  | amin (a : Addr) (w : Word) (k : Prog)
  | mark (l : Loc) (k : Prog)

/-- `Exec m0 ps m m'`: from memory `m`, the threads `ps` of a kernel launched with memory `m0` can run to
completion and leave memory `m'`. -/
inductive Exec (m0 : Mem) : List Prog → Mem → Mem → Prop
  | done {ps m} : (∀ p ∈ ps, p = Prog.ret) → Exec m0 ps m m
  | read {ps m m'} (i : Nat) {a : Addr} {k : Int → Prog} (v : Int) : ps[i]? = some (.read a k) → (m.val a).t ≤ v → v ≤ (m0.val a).t →
      Exec m0 (ps.set i (k v)) m m' → Exec m0 ps m m'
  | amin {ps m m'} (i : Nat) {a : Addr} {w : Word} {k : Prog} : ps[i]? = some (.amin a w k) →
      Exec m0 (ps.set i k) (m.amin a w) m' → Exec m0 ps m m'
  | mark {ps m m'} (i : Nat) {l : Loc} {k : Prog} : ps[i]? = some (.mark l k) →
      Exec m0 (ps.set i k) (m.setMark l) m' → Exec m0 ps m m'

/-- A kernel launched in memory `m` can leave memory `m'`. -/
def Kernel (ps : List Prog) (m m' : Mem) : Prop := Exec m ps m m'

end Nigiri.Gpu
