import Verif.Model.Api
/-
  Vocabulary for stating properties of the runtime: little-endian bytes, addresses, allocation.
-/

namespace Spec
open Monoasm

/-- The `n` bytes of the number `x`, least significant first. -/
def littleEndian (n x : Nat) : List Byte := (List.range n).map fun i => BitVec.ofNat 8 (x / 256 ^ i)

/-- The `n` bytes of memory from address `a` on. -/
def bytes (mem : Nat → Byte) (a n : Nat) : List Byte := (List.range n).map fun i => mem (a + i)

/-- What `JitMemory::new` may assume of the address returned by the allocator
    (`Layout::from_size_align(PAGE_SIZE * 3, PAGE_SIZE)`, jit_memory.rs:243-247): the three pages
    are page-size aligned, do not start at the null address and lie in the user half of the address
    space. -/
structure Alloc (base : Nat) : Prop where
  aligned : PAGE_SIZE ∣ base
  pos : 0 < base
  user : base + 3 * PAGE_SIZE ≤ 2 ^ 63

/-- Address of position `pos` of page `p`. -/
def addrOf (base : Nat) (p : Page) (pos : Nat) : Nat := base + PAGE_SIZE * p + pos

/-- Address `a` belongs to page `p`. -/
def inPage (base : Nat) (p : Page) (a : Nat) : Prop :=
  base + PAGE_SIZE * p ≤ a ∧ a < base + PAGE_SIZE * p + PAGE_SIZE

/-- Cursor of page `p`. -/
def cursor (s : JitMemory) (p : Page) : Nat := (s.pages p).counter

/-- `s'` is `s` with the bytes `bs` appended at the cursor of page `p`, and nothing else changed. -/
structure Appended (s : JitMemory) (p : Page) (bs : List Byte) (s' : JitMemory) : Prop where
  /-- the bytes are there -/
  stored : bytes s'.mem ((s.pages p).contents + (s.pages p).counter) bs.length = bs
  /-- no other byte changed -/
  frame : ∀ a, (a < (s.pages p).contents + (s.pages p).counter
      ∨ (s.pages p).contents + (s.pages p).counter + bs.length ≤ a) → s'.mem a = s.mem a
  /-- the cursor advanced by the number of bytes, the rest of the page record is unchanged -/
  page : s'.pages p = { s.pages p with counter := (s.pages p).counter + bs.length }
  others : ∀ q, q ≠ p → s'.pages q = s.pages q
  labels : s'.labels = s.labels
  selected : s'.page = s.page

/-- The state reached from a fresh `JitMemory` by a history in which every panic is caught. -/
def reach (base : Nat) (mem : Nat → Byte) (h : List Op) : JitMemory :=
  runCaught h (JitMemory.new base mem)

/-- No `finalize` of the history panics (other calls may). -/
def NoFinalizePanic (s : JitMemory) : List Op → Prop
  | [] => True
  | op :: ops => (op = .finalize → ∃ s', JitMemory.finalize s = .ok () s')
      ∧ NoFinalizePanic (op.run s).state ops

/-- No `finalize` of the history loses the label table. (A `finalize` that returns does not, and one that
    panics loses it exactly if it panics while it fills in label references, see C67.) -/
def KeepsLabels (s : JitMemory) : List Op → Prop
  | [] => True
  | op :: ops => (op = .finalize → (JitMemory.finalize s).state.labels.length = s.labels.length)
      ∧ KeepsLabels (op.run s).state ops

/-- Number of label-creating calls of a history. -/
def countNew : List Op → Nat
  | [] => 0
  | .new _ :: ops => countNew ops + 1
  | _ :: ops => countNew ops

/-- A write panics with "Page size overflow" and changes no byte outside the current page. -/
def Spills (base : Nat) (s : JitMemory) (m : M Unit) : Prop :=
  ∃ s', m s = .panic .pageSizeOverflow s'
    ∧ (∀ a, ¬ inPage base s.page a → s'.mem a = s.mem a)
    ∧ ∀ q, cursor s' q ≤ PAGE_SIZE ∧ (q ≠ s.page → cursor s' q = cursor s q)

/-- `s'` is `s` with the cursor of page `p` moved up to the least multiple of `n`, and nothing else
    changed. -/
structure AlignedTo (base n : Nat) (s : JitMemory) (p : Page) (s' : JitMemory) : Prop where
  /-- not below the old cursor -/
  up : cursor s p ≤ cursor s' p
  multiple : n ∣ cursor s' p
  least : ∀ m, cursor s p ≤ m → n ∣ m → cursor s' p ≤ m
  /-- not past the end of the page -/
  fits : cursor s' p ≤ PAGE_SIZE
  /-- the absolute address is aligned too -/
  address : n ∣ addrOf base p (cursor s' p)
  mem : s'.mem = s.mem
  page : s'.pages p = { s.pages p with counter := cursor s' p }
  others : ∀ q, q ≠ p → s'.pages q = s.pages q
  labels : s'.labels = s.labels
  selected : s'.page = s.page

/-- `l` is the label of a constant or data object that no `finalize` has placed yet. -/
def Pending (s : JitMemory) (l : DestLabel) : Prop :=
  ∃ p d, (d, l) ∈ (s.pages p).constants ∨ (d, l) ∈ (s.pages p).data

/-- All functions that give the address of a label return `a`. -/
def HasAddress (s : JitMemory) (l : DestLabel) (a : Nat) : Prop :=
  JitMemory.get_label_address l s = .ok a s ∧ JitMemory.get_label_u64 l s = .ok a s

/-- All functions that give the address of a label panic. -/
def NoAddress (s : JitMemory) (l : DestLabel) (e : Panic) : Prop :=
  JitMemory.get_label_address l s = .panic e s ∧ JitMemory.get_label_u64 l s = .panic e s

end Spec

namespace Monoasm

/-- The calls that write through an unchecked pointer. -/
def Op.isPatch : Op → Prop
  | .apply_jmp_patch _ _ => True
  | .apply_jmp_patch_address _ _ => True
  | _ => False

/-- The page selected by a history: the last one selected, pages that do not exist ignored. -/
def selected (h : List Op) : Nat :=
  h.foldl (fun cur op => match op with
    | .select_page p => if p < 2 then p else cur
    | _ => cur) 0

/-- Calls that work on the selected page only: everything except page selection, `jit[Page(p)]`,
    `bind_label_with_page`, `finalize` and patches. -/
def Op.onCurrent : Op → Prop
  | .select_page _ => False
  | .page _ _ => False
  | .bind_label_with_page _ _ => False
  | .finalize => False
  | .apply_jmp_patch _ _ => False
  | .apply_jmp_patch_address _ _ => False
  | _ => True

/-- Labels bound by a call (other than by `finalize`, which binds the labels of the constants and
    data objects it places). -/
def Op.binds : Op → DestLabel → Prop
  | .bind_label l => fun l' => l' = l
  | .bind_label_with_page _ l => fun l' => l' = l
  | .inst (.Label l) => fun l' => l' = l
  | _ => fun _ => False

/-- Entry added to the constants of the selected page. -/
def NewCall.const : NewCall → Option DataType
  | .const_f64 v => some (.u64 v)
  | .const_i64 v => some (.u64 v)
  | .const_i32 v => some (.u32 v)
  | .constant n => some (.bytes n)
  | .abs_address l => some (.absAddress l)
  | .const_align8 => some .align8
  | _ => none
/-- Entry added to the data of the selected page. -/
def NewCall.datum : NewCall → Option DataType
  | .data_i64 v => some (.u64 v)
  | .data_i32 v => some (.u32 v)
  | .data n => some (.bytes n)
  | _ => none

end Monoasm
