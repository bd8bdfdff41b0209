import Verif.Spec.Past
/-
  Vocabulary for programs that write the public field `code_block` of a page (jit_memory.rs:49) between the
  calls: `jit.code_block.clear()`, `jit[Page(1)].code_block = …`.
-/

namespace Spec
open Monoasm

abbrev Blocks := List (Nat × Nat × Nat)

/-- A call, or a write to `code_block` of page `p` (any function of what it was). -/
inductive Edit
  | call (op : Op)
  | blocks (p : Page) (f : Blocks → Blocks)

/-- A call that panics leaves the state where it stopped; the panic is caught. -/
def Edit.run : Edit → JitMemory → JitMemory
  | .call op, s => (op.run s).state
  | .blocks p f, s => s.updPage p fun pg => { pg with code_block := f pg.code_block }

def runEdits : List Edit → JitMemory → JitMemory
  | [], s => s
  | e :: es, s => runEdits es (e.run s)

/-- The calls among them. -/
def editCalls : List Edit → List Op
  | [] => []
  | .call op :: es => op :: editCalls es
  | .blocks _ _ :: es => editCalls es

/-- How many of the calls are `finalize`. -/
def finals : List Op → Nat
  | [] => 0
  | .finalize :: ops => finals ops + 1
  | _ :: ops => finals ops

/-- A page without its code blocks. -/
def bare (pg : MemPage) : MemPage := { pg with code_block := [] }

/-- The same except for the code blocks: selected page, labels, memory, and of every page the address, the
    cursor, the pending objects, the lengths of the code. -/
structure SameApartBlocks (s t : JitMemory) : Prop where
  page : s.page = t.page
  labels : s.labels = t.labels
  mem : s.mem = t.mem
  pages : ∀ p, bare (s.pages p) = bare (t.pages p)

end Spec
