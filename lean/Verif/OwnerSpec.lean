import Verif.HistorySpec
import Verif.Model.CppOwner

/-!
What the objects of the C++ class `Roaring` mean: each object is a set of its own.  Of the model of the code, only the names of the steps
(`COp`) and of the calls (`Op`) are used here, and `rbContains` for what a frozen view shows.
-/

namespace CRoaring.Owner

/-- An object: a set, or a view of frozen bytes.  In a program that uses copy-on-write, an object that was just made by `Roaring()` or
moved from is empty and does not have the flag yet (`fresh`): `setCopyOnWrite` makes it an empty set like the others. -/
inductive Obj where
  | fresh
  | set (S : NSet)
  | view (S : NSet)

/-- The objects in the order of their construction, `none` for those that were destroyed. -/
abbrev Objs := List (Option Obj)

/-- An object made by `Roaring()`, or moved from. -/
def blank (g : Bool) : Obj := if g then .fresh else .set Spec.empty

/-- An object that was not destroyed. -/
def get (p : Objs) (i : Nat) : Option Obj := (p[i]?).join

/-- The values of an object. -/
def Obj.has : Obj → NSet
  | .fresh => Spec.empty
  | .set S => S
  | .view S => S

/-- The object is a view of frozen bytes. -/
def Obj.isView : Obj → Bool
  | .view _ => true
  | _ => false

/-- A copy of an object.  The copy of a view does not have the flag for copy-on-write; such copies are left out. -/
def copied (g : Bool) : Obj → Option Obj
  | .fresh => some .fresh
  | .set S => some (.set S)
  | .view S => if g then none else some (.set S)

/-- The set of an object that calls may be given. -/
def setPart : Option Obj → Option NSet
  | some (.set S) => some S
  | _ => none

/-- The objects after a call: those that have a set have the new one, and a new set is a new object. -/
def merge : Objs → History.Pool → Objs
  | [], p => p.map (Option.map Obj.set)
  | os, [] => os
  | o :: os, x :: p => (if (setPart o).isSome then x.map Obj.set else o) :: merge os p

/-- The meaning of a step; `none` if the program may not do it.  `full` says whether an object may be assigned to itself by copying, and
whether a view may be assigned to. -/
def step (full g : Bool) (p : Objs) : COp → Option Objs
  | .make => some (p ++ [some (blank g)])
  | .setCow i =>
    match get p i with
    | some .fresh => some (p.set i (some (.set Spec.empty)))
    | some (.set _) => some p
    | _ => none
  | .copyNew i => do
    let c ← copied g (← get p i)
    some (p ++ [some c])
  | .moveNew i => do
    let s ← get p i
    some (p.set i (some (blank g)) ++ [some s])
  | .assign i j => do
    let d ← get p i
    let c ← copied g (← get p j)
    if full ∨ (i ≠ j ∧ d.isView = false) then some (p.set i (some c)) else none
  | .moveAssign i j => do
    let d ← get p i
    let s ← get p j
    if full ∨ d.isView = false then
      if i = j then some (p.set i (some (blank g))) else some ((p.set i (some s)).set j (some (blank g)))
    else none
  | .swap i j => do
    let x ← get p i
    let y ← get p j
    some ((p.set i (some y)).set j (some x))
  | .destroy i => do
    let _ ← get p i
    some (p.set i none)
  | .frozenView b => some (p ++ [some (.view (rbContains b))])
  | .call op =>
    if op.isFree then none
    else do
      let q ← History.step g (p.map setPart) op
      some (merge p q)

/-- The meaning of a program. -/
def run (full g : Bool) : Objs → List COp → Option Objs
  | p, [] => some p
  | p, op :: t => do
    let p ← step full g p op
    run full g p t

end CRoaring.Owner
