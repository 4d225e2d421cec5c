/-
`Any` (`utility/any.hpp:29-124`) and its use for the instantiated policies of SGD (`sgd/sgd_impl.hpp:47-53, 105-121,
153-160`). Types are numbers, `0` is `void`; objects are numbers handed out by the allocator, each once; `NULL` is `none`.
Deleting something not allocated, deleting through the destructor of another type and dereferencing what is not live or has
another type are undefined behaviour (`none`).
-/

namespace Ens.Holder

/-- `Any`: lines 117-123. `destr = none` is the fake destructor. -/
structure Any where
  held : Option Nat
  type : Nat
  destr : Option Nat
deriving DecidableEq, Repr

/-- `Any()`: lines 35-41. -/
def Any.empty : Any := ⟨none, 0, none⟩

/-- What is observable. -/
inductive Ev where
  | alloc (o : Nat)
  | free (o : Nat)
  | read (v o : Nat)
  | throw (v : Nat)
deriving DecidableEq, Repr

/-- The heap (`live o` is the type of the live object `o`), the next fresh object, the variables and the events. -/
structure Mem where
  next : Nat
  live : Nat → Option Nat
  var : Nat → Any
  log : List Ev

/-- No variable holds anything. -/
def Mem.init : Mem := ⟨0, fun _ => none, fun _ => Any.empty, []⟩

def setVar (m : Mem) (v : Nat) (a : Any) : Mem := { m with var := fun u => if u = v then a else m.var u }

/-- `v.Clean()`: lines 106-115. -/
def clean (m : Mem) (v : Nat) : Option Mem :=
  match (m.var v).held with
  | none => some m
  | some o =>
    match (m.var v).destr with
    | none => some (setVar m v Any.empty)
    | some t =>
      if m.live o = some t then
        some (setVar { m with live := fun u => if u = o then none else m.live u, log := m.log ++ [.free o] } v Any.empty)
      else none

/-- `v.Set<T>(new T(...))`: lines 84-90. -/
def setNew (m : Mem) (v t : Nat) : Mem :=
  setVar { m with next := m.next + 1, live := fun u => if u = m.next then some t else m.live u,
                  log := m.log ++ [.alloc m.next] } v ⟨some m.next, t, some t⟩

/-- `v.As<T>()`: lines 46-79; the returned reference is used. -/
def as (m : Mem) (v t : Nat) : Option Mem :=
  if t ≠ (m.var v).type then some { m with log := m.log ++ [.throw v] }
  else
    match (m.var v).held with
    | none => none
    | some o => if m.live o = some t then some { m with log := m.log ++ [.read v o] } else none

/-- `v.Has<T>()`: lines 95-99. -/
def has (m : Mem) (v t : Nat) : Bool := t == (m.var v).type

/-- The implicit copy of an `Any`: member by member. -/
def copy (m : Mem) (v w : Nat) : Mem := setVar m w (m.var v)

/-- Operations of a program on holders. -/
inductive Op where
  | set (v t : Nat)
  | clean (v : Nat)
  | as (v t : Nat)
  | copy (v w : Nat)
deriving DecidableEq, Repr

def step (m : Mem) : Op → Option Mem
  | .set v t => some (setNew m v t)
  | .clean v => clean m v
  | .as v t => as m v t
  | .copy v w => some (copy m v w)

def run (m : Mem) : List Op → Option Mem
  | [] => some m
  | o :: os => (step m o).bind fun m' => run m' os

/-! ### SGD -/

/-- The members of an SGD object that matter; the holders of object `k` are the variables `2 k` (decay policy) and
`2 k + 1` (update policy). -/
structure Sgd where
  isInit : Bool
  reset : Bool
deriving DecidableEq, Repr

/-- Memory and the SGD objects. -/
structure Prog where
  mem : Mem
  obj : Nat → Option Sgd

/-- Operations of a program on optimizers. -/
inductive Cmd where
  /-- Construct object `k` with `resetPolicy`. -/
  | ctor (k : Nat) (reset : Bool)
  /-- `Optimize` on object `k`, whose policies instantiate to the types `td`, `tu`; the policies are used `n` times. -/
  | optimize (k td tu n : Nat)
  /-- `~SGD`: lines 47-53. -/
  | dtor (k : Nat)
  /-- The implicit copy constructor: object `l` from `k`. -/
  | copyCtor (k l : Nat)
deriving DecidableEq, Repr

/-- Lines 105-111: the decay policy. -/
def initDecay (m : Mem) (s : Sgd) (k td : Nat) : Option Mem :=
  if !s.isInit || !has m (2 * k) td then (clean m (2 * k)).map fun m => setNew m (2 * k) td else some m

/-- Lines 114-121: the update policy. -/
def initUpdate (m : Mem) (s : Sgd) (k tu : Nat) : Option (Mem × Sgd) :=
  if s.reset || !s.isInit || !has m (2 * k + 1) tu then
    (clean m (2 * k + 1)).map fun m => (setNew m (2 * k + 1) tu, { s with isInit := true })
  else some (m, s)

/-- Lines 153-160 of `n` iterations. -/
def use (k td tu : Nat) : Nat → Mem → Option Mem
  | 0, m => some m
  | n + 1, m => (as m (2 * k + 1) tu).bind fun m => (as m (2 * k) td).bind fun m => use k td tu n m

/-- `Optimize`. -/
def optimize (m : Mem) (s : Sgd) (k td tu n : Nat) : Option (Mem × Sgd) :=
  (initDecay m s k td).bind fun m => (initUpdate m s k tu).bind fun (m, s) => (use k td tu n m).map fun m => (m, s)

/-- `~SGD`. -/
def destroy (m : Mem) (k : Nat) : Option Mem := (clean m (2 * k)).bind fun m => clean m (2 * k + 1)

def setObj (p : Prog) (k : Nat) (s : Option Sgd) : Prog := { p with obj := fun u => if u = k then s else p.obj u }

/-- One command; commands on objects that do not exist (or constructing one that does) are no programs. -/
def exec (p : Prog) : Cmd → Option Prog
  | .ctor k r =>
    match p.obj k with
    | some _ => none
    | none => some (setObj { p with mem := setVar (setVar p.mem (2 * k) Any.empty) (2 * k + 1) Any.empty } k (some ⟨false, r⟩))
  | .optimize k td tu n =>
    match p.obj k with
    | none => none
    | some s => (optimize p.mem s k td tu n).map fun (m, s) => setObj { p with mem := m } k (some s)
  | .dtor k =>
    match p.obj k with
    | none => none
    | some _ => (destroy p.mem k).map fun m => setObj { p with mem := m } k none
  | .copyCtor k l =>
    match p.obj k, p.obj l with
    | some s, none => some (setObj { p with mem := copy (copy p.mem (2 * k) (2 * l)) (2 * k + 1) (2 * l + 1) } l (some s))
    | _, _ => none

def execs (p : Prog) : List Cmd → Option Prog
  | [] => some p
  | c :: cs => (exec p c).bind fun p => execs p cs

def Prog.init : Prog := ⟨Mem.init, fun _ => none⟩

end Ens.Holder
