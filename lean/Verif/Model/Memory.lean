import Verif.Model.Basic
/-
  Model of the memory manager of `monoasm/src/jit_memory.rs` (lines 1-575): pages, emission,
  labels, constant pool, data section, relocation, `finalize`, patching.

  Process memory is one flat map from addresses to bytes. A `MemPage` refers to it by the address
  `contents`, exactly as the raw pointer in the source does.
-/

namespace Monoasm

/-- `pub struct MemPage`, jit_memory.rs:35-50. Positions (`Pos`) are `Nat`. -/
structure MemPage where
  contents : Nat
  counter : Nat
  constants : List (DataType × DestLabel)
  data : List (DataType × DestLabel)
  code_len : Nat
  code_block_top : Nat
  code_block : List (Nat × Nat × Nat)

/-- `pub struct JitMemory`, jit_memory.rs:17-24, plus the process memory `mem` it points into.
    `pages: [MemPage; 3]` is a total function of which only indices 0, 1, 2 are ever used
    (accesses with a caller-supplied index are range-checked, see `checkPage`).
    `labels: Labels(Vec<LabelInfo>)` (lib.rs:323) is a list. -/
structure JitMemory where
  page : Page
  pages : Page → MemPage
  labels : List LabelInfo
  mem : Nat → Byte

/-- Outcome of running modelled code: normal return or panic; both carry the state reached, so
    that a panic keeps the partial updates made before it. -/
inductive Res (α : Type) where
  | ok (a : α) (s : JitMemory)
  | panic (e : Panic) (s : JitMemory)

/-- Code running with `&mut JitMemory`. -/
def M (α : Type) : Type := JitMemory → Res α

namespace M

def pure {α} (a : α) : M α := fun s => .ok a s

def bind {α β} (m : M α) (f : α → M β) : M β := fun s =>
  match m s with
  | .ok a s' => f a s'
  | .panic e s' => .panic e s'

instance : Monad M where
  pure := pure
  bind := bind

/-- Read the state. -/
def get : M JitMemory := fun s => .ok s s
/-- Update the state. -/
def modify (f : JitMemory → JitMemory) : M Unit := fun s => .ok () (f s)
/-- Panic. -/
def panic {α} (e : Panic) : M α := fun s => .panic e s
/-- `assert!`. -/
def assert (b : Bool) : M Unit := fun s => if b then .ok () s else .panic .assertFailed s

end M

/-- Store one byte at an address (the effect of a store through a raw pointer). -/
def upd (mem : Nat → Byte) (a : Nat) (v : Byte) : Nat → Byte := fun x => if x = a then v else mem x

/-- Update of the page record `p`. -/
def JitMemory.updPage (s : JitMemory) (p : Page) (f : MemPage → MemPage) : JitMemory :=
  { s with pages := fun q => if q = p then f (s.pages q) else s.pages q }

/-- Range check of `self.pages[index.0]`, jit_memory.rs:198-206 (array of length 3). -/
def checkPage (p : Page) : M Unit := fun s =>
  if p < 3 then .ok () s else .panic .indexOutOfBounds s

/-! ### `impl MemPage` (jit_memory.rs:52-160)

Each method takes the index `p` of the page that is `self`. -/

namespace MemPage

/-- `MemPage::new`, jit_memory.rs:73-83 -/
def new (contents : Nat) : MemPage where
  contents := contents
  counter := 0
  constants := []
  data := []
  code_len := 0
  code_block_top := 0
  code_block := []

/-- `self[pos] = v` through `IndexMut<Pos> for MemPage`, jit_memory.rs:63-70 -/
def write (p : Page) (pos : Nat) (v : Byte) : M Unit := fun s =>
  if pos ≥ PAGE_SIZE then .panic .pageSizeOverflow s
  else .ok () { s with mem := upd s.mem ((s.pages p).contents + pos) v }

/-- reading `self[pos]` through `Index<Pos> for MemPage`, jit_memory.rs:52-61 -/
def read (p : Page) (pos : Nat) : M Byte := fun s =>
  if pos ≥ PAGE_SIZE then .panic .pageSizeOverflow s
  else .ok (s.mem ((s.pages p).contents + pos)) s

/-- `self.counter` -/
def counterOf (p : Page) : M Nat := fun s => .ok (s.pages p).counter s

/-- `self.counter = c` -/
def setCounter (p : Page) (c : Nat) : M Unit :=
  M.modify fun s => s.updPage p fun pg => { pg with counter := c }

/-- `(x + (a-1)) & !(a-1)` on `usize`, for the mask `m = a - 1` of the `align*` methods.
    64-bit wrap-around of the addition is not modelled: positions never exceed `PAGE_SIZE`
    (property C03). -/
def alignUp (x m : Nat) : Nat := (x + m) &&& (2 ^ 64 - 1 - m)

/-- `align_page`, jit_memory.rs:90-92 -/
def align_page (p : Page) : M Unit := do
  let c ← counterOf p
  setCounter p (alignUp c 4095)

/-- `align16`, jit_memory.rs:95-97 -/
def align16 (p : Page) : M Unit := do
  let c ← counterOf p
  setCounter p (alignUp c 15)

/-- `align8`, jit_memory.rs:100-102 -/
def align8 (p : Page) : M Unit := do
  let c ← counterOf p
  setCounter p (alignUp c 7)

/-- `align4`, jit_memory.rs:105-107 -/
def align4 (p : Page) : M Unit := do
  let c ← counterOf p
  setCounter p (alignUp c 3)

/-- `emitb`, jit_memory.rs:110-114 -/
def emitb (p : Page) (val : BitVec 8) : M Unit := do
  let c ← counterOf p
  write p c val
  setCounter p (c + 1)

/-- `emitw`, jit_memory.rs:117-122 -/
def emitw (p : Page) (val : BitVec 16) : M Unit := do
  let c ← counterOf p
  write p c (val.setWidth 8)
  write p (c + 1) ((val >>> 8).setWidth 8)
  setCounter p (c + 2)

/-- `emitl`, jit_memory.rs:125-132 -/
def emitl (p : Page) (val : BitVec 32) : M Unit := do
  let c ← counterOf p
  write p c (val.setWidth 8)
  write p (c + 1) ((val >>> 8).setWidth 8)
  write p (c + 2) ((val >>> 16).setWidth 8)
  write p (c + 3) ((val >>> 24).setWidth 8)
  setCounter p (c + 4)

/-- `emitq`, jit_memory.rs:135-138 -/
def emitq (p : Page) (val : BitVec 64) : M Unit := do
  emitl p (val.setWidth 32)
  emitl p ((val >>> 32).setWidth 32)

/-- `write32`, jit_memory.rs:141-147 -/
def write32 (p : Page) (loc : Nat) (val : BitVec 32) : M Unit := do
  write p loc (val.setWidth 8)
  write p (loc + 1) ((val >>> 8).setWidth 8)
  write p (loc + 2) ((val >>> 16).setWidth 8)
  write p (loc + 3) ((val >>> 24).setWidth 8)

/-- `write64`, jit_memory.rs:150-159 -/
def write64 (p : Page) (loc : Nat) (val : BitVec 64) : M Unit := do
  write p loc (val.setWidth 8)
  write p (loc + 1) ((val >>> 8).setWidth 8)
  write p (loc + 2) ((val >>> 16).setWidth 8)
  write p (loc + 3) ((val >>> 24).setWidth 8)
  write p (loc + 4) ((val >>> 32).setWidth 8)
  write p (loc + 5) ((val >>> 40).setWidth 8)
  write p (loc + 6) ((val >>> 48).setWidth 8)
  write p (loc + 7) ((val >>> 56).setWidth 8)

end MemPage

/-! ### `impl JitMemory` (jit_memory.rs:182-575) -/

/-- `const DATA_PAGE: Page = Page(2)`, jit_memory.rs:29 -/
def DATA_PAGE : Page := 2

namespace JitMemory

/-- `JitMemory::new`, jit_memory.rs:242-263. The address returned by `alloc` and the
    (uninitialised) memory content are parameters; for `protect` see `Model/Protect.lean`. -/
def new (contents : Nat) (mem : Nat → Byte) : JitMemory where
  page := 0
  pages := fun p => MemPage.new (contents + PAGE_SIZE * p)
  labels := []
  mem := mem

/-- The page reached by `Deref`/`DerefMut`, jit_memory.rs:182-193. The array bound check of
    `self.pages[self.page.0]` is omitted: `page` is private and only set by `new` (0) and
    `select_page` (< 2). -/
def cur : M Page := fun s => .ok s.page s

/-- `select_page`, jit_memory.rs:265-268 -/
def select_page (page : Nat) : M Unit := do
  M.assert (page < 2)
  M.modify fun s => { s with page := page }

/-- `get_page`, jit_memory.rs:270-272 -/
def get_page (s : JitMemory) : Nat := s.page

/-- `include`, jit_memory.rs:274-276 (`self.contents()` goes through `Deref`: current page). -/
def includes (s : JitMemory) (ptr : Nat) : Bool :=
  decide ((s.pages s.page).contents ≤ ptr) && decide (ptr < (s.pages s.page).contents + PAGE_SIZE * 2)

/-- `as_slice`, jit_memory.rs:297-299 -/
def as_slice (s : JitMemory) : List Byte :=
  (List.range (s.pages s.page).code_len).map fun i => s.mem ((s.pages s.page).contents + i)

/-- `get_current`, jit_memory.rs:301-303 -/
def get_current (s : JitMemory) : Nat := (s.pages s.page).counter

/-- `emitb` on the current page (via `DerefMut`). -/
def emitb (v : BitVec 8) : M Unit := do MemPage.emitb (← cur) v
/-- `emitw` on the current page. -/
def emitw (v : BitVec 16) : M Unit := do MemPage.emitw (← cur) v
/-- `emitl` on the current page. -/
def emitl (v : BitVec 32) : M Unit := do MemPage.emitl (← cur) v
/-- `emitq` on the current page. -/
def emitq (v : BitVec 64) : M Unit := do MemPage.emitq (← cur) v

/-- `emit(slice)`, jit_memory.rs:555-557 -/
def emit : List Byte → M Unit
  | [] => pure ()
  | b :: bs => do
    emitb b
    emit bs

/-- Index into the label table, lib.rs:337-349 (`Vec` indexing panics when out of range). -/
def labelInfo (l : DestLabel) : M LabelInfo := fun s =>
  match s.labels[l]? with
  | some i => .ok i s
  | none => .panic .indexOutOfBounds s

/-- Assignment through `IndexMut<DestLabel>`, lib.rs:345-349. -/
def modifyLabel (l : DestLabel) (f : LabelInfo → LabelInfo) : M Unit := fun s =>
  if l < s.labels.length then .ok () { s with labels := s.labels.modify l f }
  else .panic .indexOutOfBounds s

/-- `label`, jit_memory.rs:313-315 with `Labels::new_label`, lib.rs:330-334 -/
def label : M DestLabel := fun s =>
  .ok s.labels.length { s with labels := s.labels ++ [LabelInfo.new] }

/-- `self.constants.push(..)` on the current page. -/
def pushConstant (d : DataType) (l : DestLabel) : M Unit :=
  M.modify fun s => s.updPage s.page fun pg => { pg with constants := pg.constants ++ [(d, l)] }

/-- `self.data.push(..)` on the current page. -/
def pushData (d : DataType) (l : DestLabel) : M Unit :=
  M.modify fun s => s.updPage s.page fun pg => { pg with data := pg.data ++ [(d, l)] }

/-- `const_f64`, jit_memory.rs:317-322. The `f64` is given by its bit pattern
    (`u64::from_ne_bytes(val.to_ne_bytes())`). -/
def const_f64 (bits : BitVec 64) : M DestLabel := do
  let l ← label
  pushConstant (.u64 bits) l
  return l

/-- `const_i64`, jit_memory.rs:324-329 -/
def const_i64 (val : BitVec 64) : M DestLabel := do
  let l ← label
  pushConstant (.u64 val) l
  return l

/-- `data_i64`, jit_memory.rs:331-336 -/
def data_i64 (val : BitVec 64) : M DestLabel := do
  let l ← label
  pushData (.u64 val) l
  return l

/-- `const_i32`, jit_memory.rs:338-343 -/
def const_i32 (val : BitVec 32) : M DestLabel := do
  let l ← label
  pushConstant (.u32 val) l
  return l

/-- `data_i32`, jit_memory.rs:345-350 -/
def data_i32 (val : BitVec 32) : M DestLabel := do
  let l ← label
  pushData (.u32 val) l
  return l

/-- `constant(size)`, jit_memory.rs:352-356 -/
def constant (size : Nat) : M DestLabel := do
  let l ← label
  pushConstant (.bytes size) l
  return l

/-- `data(size)`, jit_memory.rs:358-362 -/
def data (size : Nat) : M DestLabel := do
  let l ← label
  pushData (.bytes size) l
  return l

/-- `abs_address`, jit_memory.rs:364-369 -/
def abs_address (addr_label : DestLabel) : M DestLabel := do
  let l ← label
  pushConstant (.absAddress addr_label) l
  return l

/-- `const_align8`, jit_memory.rs:371-375 -/
def const_align8 : M DestLabel := do
  let l ← label
  pushConstant .align8 l
  return l

/-- `bind_label`, jit_memory.rs:378-381 -/
def bind_label (l : DestLabel) : M Unit := do
  let page ← cur
  let c ← MemPage.counterOf page
  modifyLabel l fun i => { i with loc := some (page, c) }

/-- `bind_label_with_page`, jit_memory.rs:383-385 -/
def bind_label_with_page (page : Page) (l : DestLabel) : M Unit := do
  checkPage page
  let c ← MemPage.counterOf page
  modifyLabel l fun i => { i with loc := some (page, c) }

/-- `get_label_pos`, jit_memory.rs:393-397 -/
def get_label_pos (l : DestLabel) : M (Page × Nat) := do
  let i ← labelInfo l
  match i.loc with
  | some loc => return loc
  | none => M.panic .noPositionBinding

/-- `CodePtr::from`, lib.rs:35-37 -/
def codePtrFrom (ptr : Nat) : M Nat :=
  if ptr = 0 then M.panic .nullPointer else pure ptr

/-- `get_current_address`, jit_memory.rs:399-402 -/
def get_current_address : M Nat := fun s =>
  codePtrFrom ((s.pages s.page).contents + (s.pages s.page).counter) s

/-- `get_label_address`, jit_memory.rs:404-408 -/
def get_label_address (l : DestLabel) : M Nat := do
  let (page, pos) ← get_label_pos l
  let s ← M.get
  codePtrFrom ((s.pages page).contents + pos)

/-- `get_label_addr`, `get_label_addr2`, `get_label_u64`, jit_memory.rs:530-552 (three copies of
    the same body; the result is the address as a function pointer or `u64`). -/
def get_label_u64 (l : DestLabel) : M Nat := do
  let (page, pos) ← get_label_pos l
  let s ← M.get
  return (s.pages page).contents + pos

/-- `save_reloc`, jit_memory.rs:411-417 -/
def save_reloc (dest : DestLabel) (offset : BitVec 8) : M Unit := do
  let page ← cur
  let pos ← MemPage.counterOf page
  modifyLabel dest fun i => { i with target := i.target ++ [.rel page offset pos] }

/-- `save_absolute_reloc`, jit_memory.rs:420-423 -/
def save_absolute_reloc (page : Page) (dest : DestLabel) : M Unit := do
  let pos ← MemPage.counterOf page
  modifyLabel dest fun i => { i with target := i.target ++ [.abs page pos] }

/-- `i32::try_from(disp: i128)`, jit_memory.rs:436 -/
def i32TryFromInt (d : Int) : Option (BitVec 32) :=
  if -2147483648 ≤ d ∧ d ≤ 2147483647 then some (BitVec.ofInt 32 d) else none

/-- body of the `match target` in `fill_relocs`, jit_memory.rs:432-447 -/
def fillTarget (src_ptr : Nat) (t : TargetType) : M Unit := do
  match t with
  | .rel page offset pos =>
    let s ← M.get
    let target_ptr := (s.pages page).contents + pos + offset.toNat
    let disp : Int := (src_ptr : Int) - (target_ptr : Int)
    match i32TryFromInt disp with
    | some d => MemPage.write32 page pos d
    | none => M.panic .relocOverflow
  | .abs page pos => MemPage.write64 page pos (BitVec.ofNat 64 src_ptr)

/-- inner loop of `fill_relocs`, jit_memory.rs:431-448 -/
def fillTargets (src_ptr : Nat) : List TargetType → M Unit
  | [] => pure ()
  | t :: ts => do
    fillTarget src_ptr t
    fillTargets src_ptr ts

/-- body of the outer loop of `fill_relocs`, jit_memory.rs:429-449: returns the updated entry. -/
def fillLabel (rel : LabelInfo) : M LabelInfo := do
  match rel.loc with
  | some (src_page, src_pos) =>
    let s ← M.get
    let src_ptr := (s.pages src_page).contents + src_pos
    fillTargets src_ptr rel.target
    return { rel with target := [] }
  | none => return rel

/-- outer loop of `fill_relocs`, jit_memory.rs:428-450 -/
def fillLabels : List LabelInfo → M (List LabelInfo)
  | [] => return []
  | r :: rs => do
    let r' ← fillLabel r
    let rs' ← fillLabels rs
    return r' :: rs'

/-- `fill_relocs`, jit_memory.rs:426-452. `std::mem::take` leaves an empty table behind until the
    last line (so a panic in between loses it). -/
def fill_relocs : M Unit := do
  let s ← M.get
  let reloc := s.labels
  M.modify fun s => { s with labels := [] }
  let reloc ← fillLabels reloc
  M.modify fun s => { s with labels := reloc }

/-- `for _ in 0..size { self[Page(id)].emitb(0); }`, jit_memory.rs:473-475 and 511-513 -/
def emitZeros (p : Page) : Nat → M Unit
  | 0 => pure ()
  | n + 1 => do
    MemPage.emitb p 0
    emitZeros p n

/-- body of the loop of `resolve_constants` (jit_memory.rs:459-487) for `p = Page(id)`, and of
    `resolve_data` (jit_memory.rs:497-525) for `p = DATA_PAGE`: the two bodies are identical. -/
def resolveOne (p : Page) (c : DataType) (l : DestLabel) : M Unit := do
  match c with
  | .u64 val =>
    MemPage.align16 p
    bind_label_with_page p l
    MemPage.emitq p val
  | .u32 val =>
    MemPage.align4 p
    bind_label_with_page p l
    MemPage.emitl p val
  | .bytes size =>
    MemPage.align16 p
    bind_label_with_page p l
    emitZeros p size
  | .absAddress lbl =>
    MemPage.align8 p
    bind_label_with_page p l
    save_absolute_reloc p lbl
    MemPage.emitq p 0
  | .align8 =>
    MemPage.align8 p
    bind_label_with_page p l

/-- `for (c, label) in constants { .. }`, jit_memory.rs:458-488, 496-526 -/
def resolveList (p : Page) : List (DataType × DestLabel) → M Unit
  | [] => pure ()
  | (c, l) :: rest => do
    resolveOne p c l
    resolveList p rest

/-- one iteration of the outer loop of `resolve_constants`, jit_memory.rs:457-488 -/
def resolveConstantsOf (id : Page) : M Unit := do
  let s ← M.get
  let constants := (s.pages id).constants
  M.modify fun s => s.updPage id fun pg => { pg with constants := [] }
  resolveList id constants

/-- `resolve_constants`, jit_memory.rs:455-490 (`for id in 0..2` unrolled) -/
def resolve_constants : M Unit := do
  resolveConstantsOf 0
  resolveConstantsOf 1

/-- one iteration of the outer loop of `resolve_data`, jit_memory.rs:495-526 -/
def resolveDataOf (id : Page) : M Unit := do
  let s ← M.get
  let data := (s.pages id).data
  M.modify fun s => s.updPage id fun pg => { pg with data := [] }
  resolveList DATA_PAGE data

/-- `resolve_data`, jit_memory.rs:493-528 (`for id in 0..2` unrolled) -/
def resolve_data : M Unit := do
  resolveDataOf 0
  resolveDataOf 1

/-- first loop body of `finalize`, jit_memory.rs:281-284 -/
def openBlock (pg : MemPage) : MemPage :=
  { pg with
    code_len := pg.counter
    code_block := pg.code_block ++ [(pg.code_block_top, pg.counter, 0)] }

/-- second loop body of `finalize`, jit_memory.rs:289: sets the third component of the last block.
    (`last_mut().unwrap()` cannot fail: the first loop has just pushed a block.) -/
def closeBlock (pg : MemPage) : MemPage :=
  { pg with
    code_block := pg.code_block.modify (pg.code_block.length - 1) fun b => (b.1, b.2.1, pg.counter) }

/-- third loop body of `finalize`, jit_memory.rs:293 -/
def topBlock (pg : MemPage) : MemPage := { pg with code_block_top := pg.counter }

/-- `for page in &mut self.pages { f }`, jit_memory.rs:280,288,292 (three pages) -/
def forPages (f : MemPage → MemPage) : M Unit :=
  M.modify fun s => { s with pages := fun p => if p < 3 then f (s.pages p) else s.pages p }

/-- `finalize`, jit_memory.rs:279-295 -/
def finalize : M Unit := do
  forPages openBlock
  resolve_constants
  resolve_data
  forPages closeBlock
  fill_relocs
  forPages topBlock

/-- a store `*(p as *mut [u8; 4]) = v` through a raw pointer: no bounds check. -/
def rawWrite4 (addr : Nat) (v : BitVec 32) : M Unit :=
  M.modify fun s =>
    let m0 := upd s.mem addr (v.setWidth 8)
    let m1 := upd m0 (addr + 1) ((v >>> 8).setWidth 8)
    let m2 := upd m1 (addr + 2) ((v >>> 16).setWidth 8)
    let m3 := upd m2 (addr + 3) ((v >>> 24).setWidth 8)
    { s with mem := m3 }

/-- `apply_jmp_patch_address`, jit_memory.rs:570-574. `jmp_dest - patch_point - 5` is 64-bit
    two's complement arithmetic (`Sub<CodePtr>`, lib.rs:14-19; the overflow check of debug builds
    cannot fire for addresses below 2^63), `as i32` truncates, `to_ne_bytes` is little-endian on
    x86-64. -/
def apply_jmp_patch_address (patch_point : Nat) (jmp_dest : DestLabel) : M Unit := do
  let dest ← get_label_address jmp_dest
  let offset : BitVec 64 := BitVec.ofNat 64 dest - BitVec.ofNat 64 patch_point - 5
  rawWrite4 (patch_point + 1) (offset.setWidth 32)

/-- `apply_jmp_patch`, jit_memory.rs:562-565 -/
def apply_jmp_patch (patch_point jmp_dest : DestLabel) : M Unit := do
  let pp ← get_label_address patch_point
  apply_jmp_patch_address pp jmp_dest

end JitMemory

/-! ### `CodePtr` (lib.rs:10-42) -/

namespace CodePtr

/-- `Sub<CodePtr>`, lib.rs:14-19: `(self as i64) - (rhs as i64)`. -/
def sub (a b : BitVec 64) : BitVec 64 := a - b

/-- `Add<usize>`, lib.rs:21-26: pointer addition, then `CodePtr::from` (null check). -/
def add (a n : BitVec 64) : Except Panic (BitVec 64) :=
  if a + n = 0 then .error .nullPointer else .ok (a + n)

/-- `CodePtr::from`, lib.rs:35-37 -/
def from' (p : BitVec 64) : Except Panic (BitVec 64) :=
  if p = 0 then .error .nullPointer else .ok p

/-- `PartialOrd`, lib.rs:28-32: comparison of raw pointers. -/
def lt (a b : BitVec 64) : Bool := a.toNat < b.toNat

end CodePtr

end Monoasm
