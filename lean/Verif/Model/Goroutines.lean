import Verif.Model.Heap
/-
Goroutines: several computations of Verif/Model/Heap.lean that run at the same time on the same memory.

A state of the machine is a memory that all goroutines know, and for each goroutine what it still has to do
and the numbers it has made itself. The machine makes one step of one goroutine at a time; which one is
chosen by a schedule, any list of goroutine numbers. So all interleavings are considered.

Simplifications:
* one step reads or writes one whole `big.Float`. A data race is defined by the accesses that the goroutines
  make, not by what comes out of it, so that a program without races does not depend on the size of the steps.
* the goroutines do not talk to each other: no goroutine is told the address of a number that another one makes
  while they run. Addresses below the size of the common memory mean the common numbers, other addresses
  the numbers of the goroutine itself. The code in /repo starts no goroutines and has no channels or locks.
* a panic ends only the goroutine that panics, as if it was recovered there.
* the tables and the variables of the packages (`powersOfTen`, `NaN`, ...) are constants here: no statement
  in /repo outside of tests assigns to them.
-/
namespace GoFloat

/-- A goroutine: what it still has to do, and the numbers it has made so far. -/
structure Goroutine (α : Type) where
  code : Mem α
  own : Heap

/-- The machine: the numbers that all goroutines know, and the goroutines. -/
structure Machine (α : Type) where
  shared : Heap
  gs : List (Goroutine α)

/-- One step of goroutine `i`. For it, the memory is the common numbers followed by its own. -/
def Machine.step {α : Type} (m : Machine α) (i : Nat) : Machine α :=
  match m.gs[i]? with
  | none => m
  | some g =>
    let r := g.code.step (m.shared ++ g.own)
    ⟨r.2.take m.shared.length, m.gs.set i ⟨r.1, r.2.drop m.shared.length⟩⟩

/-- The steps of a schedule. -/
def Machine.run {α : Type} (m : Machine α) : List Nat → Machine α
  | [] => m
  | i :: is => (m.step i).run is

/-- A step can read or write a number. -/
inductive Access where
  | read (p : Addr)
  | write (p : Addr)
  deriving DecidableEq, Repr

/-- The address that is read or written. -/
def Access.addr : Access → Addr
  | read p => p
  | write p => p

/-- The access that the next step makes, if any (making a new number is none: nobody else knows it). -/
def Mem.access {α : Type} : Mem α → Option Access
  | .done _ => none
  | .load p _ => some (.read p)
  | .store p _ _ => some (.write p)
  | .alloc _ _ => none

/-- The accesses made by the steps of a schedule, with the goroutine that makes them. -/
def Machine.trace {α : Type} (m : Machine α) : List Nat → List (Nat × Access)
  | [] => []
  | i :: is =>
    match m.gs[i]? with
    | none => (m.step i).trace is
    | some g =>
      match g.code.access with
      | none => (m.step i).trace is
      | some a => (i, a) :: (m.step i).trace is

/-- A data race (the Go memory model, https://go.dev/ref/mem): two goroutines access the same common number and
at least one of them writes it. Nothing orders the two accesses, because the goroutines do not synchronise. -/
def Machine.Race {α : Type} (m : Machine α) (schedule : List Nat) : Prop :=
  ∃ i j p a, i ≠ j ∧ p < m.shared.length ∧ (i, .write p) ∈ m.trace schedule ∧ (j, a) ∈ m.trace schedule ∧ a.addr = p

/-- What a call returns. -/
inductive Result where
  | big (x : BigFloat) (nan : Bool)
  | float64 (x : F64) (acc : Accuracy)
  | float32 (x : F32) (acc : Accuracy)
  | binary16 (f : Binary16.Float) (acc : Accuracy)
  | binary128 (f : Binary128.Float) (acc : Accuracy)
  | float80x86 (f : Float80x86.Float) (acc : Accuracy)
  | float128ppc (f : Float128ppc.Float) (acc : Accuracy)
  | bool (b : Bool)

/-- The calls that a goroutine can make: every function and method of /repo that works with `big.Float`. -/
inductive Call where
  | bfloatBig (f : Bfloat.Float)
  | binary16Big (f : Binary16.Float)
  | binary16NewFromBig (x : Addr)
  | binary16NewFromFloat64 (x : F64)
  | binary16NewFromFloat32 (x : F32)
  | binary16Float64 (f : Binary16.Float)
  | binary16Float32 (f : Binary16.Float)
  | binary128Big (f : Binary128.Float)
  | binary128NewFromBig (x : Addr)
  | binary128NewFromFloat64 (x : F64)
  | binary128NewFromFloat32 (x : F32)
  | binary128Float64 (f : Binary128.Float)
  | binary128Float32 (f : Binary128.Float)
  | float80x86Big (f : Float80x86.Float)
  | float80x86NewFromBig (x : Addr)
  | float80x86NewFromFloat64 (x : F64)
  | float80x86NewFromFloat32 (x : F32)
  | float80x86Float64 (f : Float80x86.Float)
  | float80x86Float32 (f : Float80x86.Float)
  | float128ppcBig (f : Float128ppc.Float)
  | float128ppcNewFromBig (x : Addr)
  | float128ppcNewFromFloat64 (x : F64)
  | float128ppcNewFromFloat32 (x : F32)
  | float128ppcFloat64 (f : Float128ppc.Float)
  | float128ppcFloat32 (f : Float128ppc.Float)
  | isExact16 (W : Nat) (x : Addr)
  | isExact32 (W : Nat) (x : Addr)
  | isExact64 (W : Nat) (x : Addr)

/-- The variable that the call is given. -/
def Call.arg : Call → Option Addr
  | .binary16NewFromBig x => some x
  | .binary128NewFromBig x => some x
  | .float80x86NewFromBig x => some x
  | .float128ppcNewFromBig x => some x
  | .isExact16 _ x => some x
  | .isExact32 _ x => some x
  | .isExact64 _ x => some x
  | _ => none

/-- A call of `Big`, and a look at the number it returned. -/
def Call.look (m : Mem (Addr × Bool)) : Mem Result := do
  let (p, nan) ← m
  return .big (← Mem.get p) nan

/-- What a call does with the memory (Verif/Model/Heap.lean). -/
def Call.mem : Call → Mem Result
  | .bfloatBig f => look f.bigMem
  | .binary16Big f => look f.bigMem
  | .binary16NewFromBig x => do let (f, acc) ← Binary16.newFromBigMem x; return .binary16 f acc
  | .binary16NewFromFloat64 x => do let (f, acc) ← Binary16.newFromFloat64Mem x; return .binary16 f acc
  | .binary16NewFromFloat32 x => do let (f, acc) ← Binary16.newFromFloat32Mem x; return .binary16 f acc
  | .binary16Float64 f => do let (x, acc) ← f.float64Mem; return .float64 x acc
  | .binary16Float32 f => do let (x, acc) ← f.float32Mem; return .float32 x acc
  | .binary128Big f => look f.bigMem
  | .binary128NewFromBig x => do let (f, acc) ← Binary128.newFromBigMem x; return .binary128 f acc
  | .binary128NewFromFloat64 x => do let (f, acc) ← Binary128.newFromFloat64Mem x; return .binary128 f acc
  | .binary128NewFromFloat32 x => do let (f, acc) ← Binary128.newFromFloat32Mem x; return .binary128 f acc
  | .binary128Float64 f => do let (x, acc) ← f.float64Mem; return .float64 x acc
  | .binary128Float32 f => do let (x, acc) ← f.float32Mem; return .float32 x acc
  | .float80x86Big f => look f.bigMem
  | .float80x86NewFromBig x => do let (f, acc) ← Float80x86.newFromBigMem x; return .float80x86 f acc
  | .float80x86NewFromFloat64 x => do let (f, acc) ← Float80x86.newFromFloat64Mem x; return .float80x86 f acc
  | .float80x86NewFromFloat32 x => do let (f, acc) ← Float80x86.newFromFloat32Mem x; return .float80x86 f acc
  | .float80x86Float64 f => do let (x, acc) ← f.float64Mem; return .float64 x acc
  | .float80x86Float32 f => do let (x, acc) ← f.float32Mem; return .float32 x acc
  | .float128ppcBig f => look f.bigMem
  | .float128ppcNewFromBig x => do let (f, acc) ← Float128ppc.newFromBigMem x; return .float128ppc f acc
  | .float128ppcNewFromFloat64 x => do let (f, acc) ← Float128ppc.newFromFloat64Mem x; return .float128ppc f acc
  | .float128ppcNewFromFloat32 x => do let (f, acc) ← Float128ppc.newFromFloat32Mem x; return .float128ppc f acc
  | .float128ppcFloat64 f => do let (x, acc) ← f.float64Mem; return .float64 x acc
  | .float128ppcFloat32 f => do let (x, acc) ← f.float32Mem; return .float32 x acc
  | .isExact16 W x => do return .bool (← isExact16Mem W x)
  | .isExact32 W x => do return .bool (← isExact32Mem W x)
  | .isExact64 W x => do return .bool (← isExact64Mem W x)

/-- The calls of a goroutine, one after the other. -/
def Call.all : List Call → Mem (List Result)
  | [] => pure []
  | c :: cs => do
    let r ← c.mem
    let rs ← all cs
    return r :: rs

/-- The machine at the start: the common numbers, and goroutines that make the given calls. -/
def Machine.start (shared : Heap) (calls : List (List Call)) : Machine (List Result) :=
  ⟨shared, calls.map (fun cs => ⟨Call.all cs, []⟩)⟩

/-- The number at `x`. -/
def Call.number (h : Heap) (x : Addr) : Go BigFloat :=
  match h[x]? with
  | some v => .ok v
  | none => .error .nilPointer

/-- What the call returns according to the functions on values (Verif/Model/Binary16.lean, ...), for the numbers `h`. -/
def Call.value (h : Heap) : Call → Go Result
  | .bfloatBig f => do let (x, nan) ← f.big; return .big x nan
  | .binary16Big f => do let (x, nan) ← f.big; return .big x nan
  | .binary16NewFromBig x => do let (f, acc) ← Binary16.newFromBig (← number h x); return .binary16 f acc
  | .binary16NewFromFloat64 x => do let (f, acc) ← Binary16.newFromFloat64 x; return .binary16 f acc
  | .binary16NewFromFloat32 x => do let (f, acc) ← Binary16.newFromFloat32 x; return .binary16 f acc
  | .binary16Float64 f => do let (x, acc) ← f.float64; return .float64 x acc
  | .binary16Float32 f => do let (x, acc) ← f.float32; return .float32 x acc
  | .binary128Big f => do let (x, nan) ← f.big; return .big x nan
  | .binary128NewFromBig x => do let (f, acc) ← Binary128.newFromBig (← number h x); return .binary128 f acc
  | .binary128NewFromFloat64 x => do let (f, acc) ← Binary128.newFromFloat64 x; return .binary128 f acc
  | .binary128NewFromFloat32 x => do let (f, acc) ← Binary128.newFromFloat32 x; return .binary128 f acc
  | .binary128Float64 f => do let (x, acc) ← f.float64; return .float64 x acc
  | .binary128Float32 f => do let (x, acc) ← f.float32; return .float32 x acc
  | .float80x86Big f => do let (x, nan) ← f.big; return .big x nan
  | .float80x86NewFromBig x => do let (f, acc) ← Float80x86.newFromBig (← number h x); return .float80x86 f acc
  | .float80x86NewFromFloat64 x => do let (f, acc) ← Float80x86.newFromFloat64 x; return .float80x86 f acc
  | .float80x86NewFromFloat32 x => do let (f, acc) ← Float80x86.newFromFloat32 x; return .float80x86 f acc
  | .float80x86Float64 f => do let (x, acc) ← f.float64; return .float64 x acc
  | .float80x86Float32 f => do let (x, acc) ← f.float32; return .float32 x acc
  | .float128ppcBig f => do let (x, nan) ← f.big; return .big x nan
  | .float128ppcNewFromBig x => do let ((f, acc), _) ← Float128ppc.newFromBig (← number h x); return .float128ppc f acc
  | .float128ppcNewFromFloat64 x => do let (f, acc) ← Float128ppc.newFromFloat64 x; return .float128ppc f acc
  | .float128ppcNewFromFloat32 x => do let (f, acc) ← Float128ppc.newFromFloat32 x; return .float128ppc f acc
  | .float128ppcFloat64 f => do let (x, acc) ← f.float64; return .float64 x acc
  | .float128ppcFloat32 f => do let (x, acc) ← f.float32; return .float32 x acc
  | .isExact16 W x => do return .bool (← GoFloat.isExact16 W (← number h x))
  | .isExact32 W x => do return .bool (← GoFloat.isExact32 W (← number h x))
  | .isExact64 W x => do return .bool (← GoFloat.isExact64 W (← number h x))

end GoFloat
