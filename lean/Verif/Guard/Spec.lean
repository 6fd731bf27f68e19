import Verif.Guard.Model

/-!
# What owners should do

An owner is responsible for at most one item (an action to run, an object to delete).  Responsibility is passed on by
moves, given up by `release`, and discharged when the owner goes away or takes over another item.
-/

namespace Verif.Guard

/-- Who is responsible for what; the items discharged (last one first); the items given up. -/
structure Ideal where
  own : List (Nat × Nat)
  done : List Nat
  freed : List Nat

def Ideal.init : Ideal := ⟨[], [], []⟩

def items (own : List (Nat × Nat)) (g : Nat) : List Nat := (own.filter (fun x => x.1 == g)).map (·.2)

def others (own : List (Nat × Nat)) (g : Nat) : List (Nat × Nat) := own.filter (fun x => x.1 != g)

/-- The owner `g` discharges what it owns. -/
def Ideal.discharge (s : Ideal) (g : Nat) : Ideal := ⟨others s.own g, items s.own g ++ s.done, s.freed⟩

/-- The owner `g` gives up what it owns. -/
def Ideal.giveUp (s : Ideal) (g : Nat) : Ideal := ⟨others s.own g, s.done, items s.own g ++ s.freed⟩

/-- What `h` owns passes to `g`. -/
def Ideal.pass (s : Ideal) (g h : Nat) : Ideal :=
  { s with own := s.own.map (fun x => if x.1 = h then (g, x.2) else x) }

def Ideal.take (s : Ideal) (g a : Nat) : Ideal := { s with own := (g, a) :: s.own }

/-- Scope guards. -/
def Ideal.step (s : Ideal) : Op → Ideal
  | .create g a e => if e then s.take g a else s
  | .release g => s.giveUp g
  | .moveCtor g h => s.pass g h
  | .moveAssign g h => if g = h then s else (s.discharge g).pass g h
  | .destroy g => s.discharge g

def Ideal.run (s : Ideal) (ops : List Op) : Ideal := ops.foldl Ideal.step s

/-- Owning pointers. -/
def Ideal.pstep (s : Ideal) : POp → Ideal
  | .make u p => s.take u p
  | .moveCtor u w => s.pass u w
  | .moveAssign u w => if u = w then s else (s.discharge u).pass u w
  | .reset u p => (s.discharge u).take u p
  | .clear u => s.discharge u
  | .release u => s.giveUp u
  | .destroy u => s.discharge u

def Ideal.prun (s : Ideal) (ops : List POp) : Ideal := ops.foldl Ideal.pstep s

/-- How many times an item has been handed to an owner. -/
def created (a : Nat) : List Op → Nat
  | [] => 0
  | .create _ b e :: ops => (if b = a ∧ e = true then 1 else 0) + created a ops
  | _ :: ops => created a ops

def pcreated (a : Nat) : List POp → Nat
  | [] => 0
  | .make _ b :: ops => (if b = a then 1 else 0) + pcreated a ops
  | .reset _ b :: ops => (if b = a then 1 else 0) + pcreated a ops
  | _ :: ops => pcreated a ops

/-- Programs that use the names of guards as C++ does: `N` are the ones that exist. -/
def WF (N : List Nat) : List Op → Prop
  | [] => True
  | .create g _ _ :: ops => g ∉ N ∧ WF (g :: N) ops
  | .release g :: ops => g ∈ N ∧ WF N ops
  | .moveCtor g h :: ops => g ∉ N ∧ h ∈ N ∧ WF (g :: N) ops
  | .moveAssign g h :: ops => g ∈ N ∧ h ∈ N ∧ WF N ops
  | .destroy g :: ops => g ∈ N ∧ WF (N.filter (· != g)) ops

/-- No move assignments, and guards are moved only while they are responsible for something. -/
def Careful (s : Ideal) : List Op → Prop
  | [] => True
  | .moveAssign _ _ :: _ => False
  | .moveCtor g h :: ops => (∃ a, (h, a) ∈ s.own) ∧ Careful (s.step (.moveCtor g h)) ops
  | op :: ops => Careful (s.step op) ops

/-- The same for pointers; `used` are the objects created so far. -/
def PWF (N used : List Nat) : List POp → Prop
  | [] => True
  | .make u p :: ops => u ∉ N ∧ p ∉ used ∧ PWF (u :: N) (p :: used) ops
  | .moveCtor u w :: ops => u ∉ N ∧ w ∈ N ∧ PWF (u :: N) used ops
  | .moveAssign u w :: ops => u ∈ N ∧ w ∈ N ∧ PWF N used ops
  | .reset u p :: ops => u ∈ N ∧ p ∉ used ∧ PWF N (p :: used) ops
  | .clear u :: ops => u ∈ N ∧ PWF N used ops
  | .release u :: ops => u ∈ N ∧ PWF N used ops
  | .destroy u :: ops => u ∈ N ∧ PWF (N.filter (· != u)) used ops

/-- No pointer is assigned to itself. -/
def NoSelf (ops : List POp) : Prop := ∀ u, POp.moveAssign u u ∉ ops

end Verif.Guard
