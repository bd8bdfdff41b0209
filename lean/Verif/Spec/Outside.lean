import Verif.Spec.Past
/-
  Vocabulary for a process in which other writes to memory happen between the calls: the generated
  code runs and stores to the data page, to the stack or even into its own code; another `JitMemory`
  of the same process assembles.
-/

namespace Spec
open Monoasm

/-- What happens next: a call of the API, or anything else that changes memory (any function of the
    memory). -/
inductive Event
  | call (op : Op)
  | outside (f : (Nat → Byte) → Nat → Byte)

/-- A call that panics leaves the state where it stopped; the panic is caught. -/
def Event.run : Event → JitMemory → JitMemory
  | .call op, s => (op.run s).state
  | .outside f, s => { s with mem := f s.mem }

def runEvents : List Event → JitMemory → JitMemory
  | [], s => s
  | e :: es, s => runEvents es (e.run s)

/-- The calls among the events. -/
def apiCalls : List Event → List Op
  | [] => []
  | .call op :: es => op :: apiCalls es
  | .outside _ :: es => apiCalls es

/-- Nothing but the calls writes to the addresses `A`. -/
def Untouched (A : Nat → Prop) (es : List Event) : Prop :=
  ∀ f, .outside f ∈ es → ∀ m a, A a → f m a = m a

/-- The same except for memory. -/
structure SameRecords (s t : JitMemory) : Prop where
  page : s.page = t.page
  labels : s.labels = t.labels
  pages : s.pages = t.pages

/-- The addresses of the three pages of the allocation at `base`. -/
def Owns (base a : Nat) : Prop := base ≤ a ∧ a < base + 3 * PAGE_SIZE

/-- The jump patches of the history rewrite bytes of the own pages. -/
def PatchesHome (base : Nat) (mem : Nat → Byte) (h : List Op) : Prop :=
  ∀ pre op post, h = pre ++ op :: post → op.isPatch → ∀ a, Overwrites (reach base mem pre) op a → Owns base a

/-- Two `JitMemory`s in the same memory. -/
structure Pair where
  first : JitMemory
  second : JitMemory

/-- A call on the first (`false`) or the second (`true`) of two `JitMemory`s. The other one sees the
    memory as the call has left it. -/
def Pair.call (b : Bool) (op : Op) (s : Pair) : Pair :=
  if b then
    let t := (op.run s.second).state
    ⟨{ s.first with mem := t.mem }, t⟩
  else
    let t := (op.run s.first).state
    ⟨t, { s.second with mem := t.mem }⟩

def Pair.run : List (Bool × Op) → Pair → Pair
  | [], s => s
  | c :: cs, s => Pair.run cs (s.call c.1 c.2)

/-- The calls made on one of the two. -/
def callsOn (b : Bool) (cs : List (Bool × Op)) : List Op := (cs.filter fun c => c.1 = b).map Prod.snd

/-- Two new `JitMemory`s at `b1` and `b2` in the memory `m`. -/
def Pair.new (b1 b2 : Nat) (m : Nat → Byte) : Pair := ⟨JitMemory.new b1 m, JitMemory.new b2 m⟩

end Spec
