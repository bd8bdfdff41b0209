import Verif.Model.Memory
/-
  The memory manager (jit_memory.rs:1-575) once more, with the arithmetic of the machine: `usize` is
  `BitVec 64`, memory is addressed by 64 bits, additions wrap around. `chk` says whether the overflow
  checks of debug builds are compiled in; with them, an addition, subtraction or negation of integers
  that overflows panics. An addition of pointers (`<*mut u8>::add`) that leaves the address space is
  undefined behaviour in both builds.

  `Model/Memory.lean` computes with natural numbers instead. Property C68 compares the two.
-/

namespace Monoasm.Machine

/-- How a call can fail here. -/
inductive Fault where
  /-- a panic that is written in the source -/
  | panic (e : Panic)
  /-- the panic `attempt to .. with overflow` -/
  | overflow
  /-- pointer arithmetic that leaves the address space -/
  | undefined
deriving DecidableEq, Repr

/-- `usize`, and raw pointers. -/
abbrev Word := BitVec 64

/-- `enum TargetType`, lib.rs:316-319 -/
inductive TargetType where
  | rel (page : Page) (offset : BitVec 8) (pos : Word)
  | abs (page : Page) (pos : Word)

/-- `struct LabelInfo`, lib.rs:298-304 -/
structure LabelInfo where
  loc : Option (Page × Word)
  target : List TargetType

/-- `pub struct MemPage`, jit_memory.rs:35-50 -/
structure MemPage where
  contents : Word
  counter : Word
  constants : List (DataType × DestLabel)
  data : List (DataType × DestLabel)
  code_len : Word
  code_block_top : Word
  code_block : List (Word × Word × Word)

/-- `pub struct JitMemory`, jit_memory.rs:17-24, with the memory of the process. -/
structure JitMemory where
  page : Page
  pages : Page → MemPage
  labels : List LabelInfo
  mem : Word → Byte

inductive Res (α : Type) where
  | ok (a : α) (t : JitMemory)
  | fault (e : Fault) (t : JitMemory)

/-- Code running with `&mut JitMemory`, compiled with or without overflow checks. -/
def M (α : Type) : Type := Bool → JitMemory → Res α

namespace M

def pure {α} (a : α) : M α := fun _ t => .ok a t

def bind {α β} (m : M α) (f : α → M β) : M β := fun chk t =>
  match m chk t with
  | .ok a t' => f a chk t'
  | .fault e t' => .fault e t'

instance : Monad M where
  pure := pure
  bind := bind

def get : M JitMemory := fun _ t => .ok t t
def modify (f : JitMemory → JitMemory) : M Unit := fun _ t => .ok () (f t)
def panic {α} (e : Panic) : M α := fun _ t => .fault (.panic e) t

end M

/-! ### Arithmetic -/

/-- `a + b` on `usize` -/
def add (a b : Word) : M Word := fun chk t =>
  if chk ∧ 2 ^ 64 ≤ a.toNat + b.toNat then .fault .overflow t else .ok (a + b) t

/-- `a + b` on `i64` -/
def addSigned (a b : Word) : M Word := fun chk t =>
  if chk ∧ (a.toInt + b.toInt < -2 ^ 63 ∨ 2 ^ 63 ≤ a.toInt + b.toInt) then .fault .overflow t else .ok (a + b) t

/-- `a - b` on `i64` -/
def subSigned (a b : Word) : M Word := fun chk t =>
  if chk ∧ (a.toInt - b.toInt < -2 ^ 63 ∨ 2 ^ 63 ≤ a.toInt - b.toInt) then .fault .overflow t else .ok (a - b) t

/-- `p.add(n)` on pointers to bytes -/
def ptrAdd (p n : Word) : M Word := fun _ t =>
  if 2 ^ 64 ≤ p.toNat + n.toNat then .fault .undefined t else .ok (p + n) t

/-- `Add<i32> for Pos`, lib.rs:264-270: `(self.0 as i64 + other as i64) as usize` -/
def posAdd (p : Word) (n : BitVec 32) : M Word := addSigned p (n.signExtend 64)

/-- Store one byte. -/
def upd (mem : Word → Byte) (a : Word) (v : Byte) : Word → Byte := fun x => if x = a then v else mem x

/-- Update of the page record `p`. -/
def JitMemory.updPage (t : JitMemory) (p : Page) (f : MemPage → MemPage) : JitMemory :=
  { t with pages := fun q => if q = p then f (t.pages q) else t.pages q }

/-- Range check of `self.pages[index.0]`, jit_memory.rs:198-206 -/
def checkPage (p : Page) : M Unit := fun _ t =>
  if p < 3 then .ok () t else .fault (.panic .indexOutOfBounds) t

/-! ### `impl MemPage` (jit_memory.rs:52-160) -/

namespace MemPage

/-- `MemPage::new`, jit_memory.rs:73-83 -/
def new (contents : Word) : MemPage where
  contents := contents
  counter := 0
  constants := []
  data := []
  code_len := 0
  code_block_top := 0
  code_block := []

/-- `self.contents().add(pos)` -/
def address (p : Page) (pos : Word) : M Word := fun chk t => ptrAdd (t.pages p).contents pos chk t

/-- `self[pos] = v`, jit_memory.rs:63-70 -/
def write (p : Page) (pos : Word) (v : Byte) : M Unit :=
  if pos.toNat ≥ PAGE_SIZE then M.panic .pageSizeOverflow
  else do
    let a ← address p pos
    M.modify fun t => { t with mem := upd t.mem a v }

/-- `self.counter` -/
def counterOf (p : Page) : M Word := fun _ t => .ok (t.pages p).counter t

/-- `self.counter = c` -/
def setCounter (p : Page) (c : Word) : M Unit :=
  M.modify fun t => t.updPage p fun pg => { pg with counter := c }

/-- `align_page`, `align16`, `align8`, `align4`, jit_memory.rs:90-107, for the mask `m` -/
def align (p : Page) (m : Word) : M Unit := do
  let c ← counterOf p
  let c ← add c m
  setCounter p (c &&& ~~~m)

/-- `emitb`, jit_memory.rs:110-114 -/
def emitb (p : Page) (val : BitVec 8) : M Unit := do
  let c ← counterOf p
  write p c val
  setCounter p (← posAdd c 1)

/-- `emitw`, jit_memory.rs:117-122 -/
def emitw (p : Page) (val : BitVec 16) : M Unit := do
  let c ← counterOf p
  write p c (val.setWidth 8)
  write p (← posAdd c 1) ((val >>> 8).setWidth 8)
  setCounter p (← posAdd c 2)

/-- `write32`, jit_memory.rs:141-147, and the stores of `emitl`, jit_memory.rs:125-131 -/
def write32 (p : Page) (loc : Word) (val : BitVec 32) : M Unit := do
  write p loc (val.setWidth 8)
  write p (← posAdd loc 1) ((val >>> 8).setWidth 8)
  write p (← posAdd loc 2) ((val >>> 16).setWidth 8)
  write p (← posAdd loc 3) ((val >>> 24).setWidth 8)

/-- `emitl`, jit_memory.rs:125-132 -/
def emitl (p : Page) (val : BitVec 32) : M Unit := do
  let c ← counterOf p
  write32 p c val
  setCounter p (← posAdd c 4)

/-- `emitq`, jit_memory.rs:135-138 -/
def emitq (p : Page) (val : BitVec 64) : M Unit := do
  emitl p (val.setWidth 32)
  emitl p ((val >>> 32).setWidth 32)

/-- `write64`, jit_memory.rs:150-159 -/
def write64 (p : Page) (loc : Word) (val : BitVec 64) : M Unit := do
  write p loc (val.setWidth 8)
  write p (← posAdd loc 1) ((val >>> 8).setWidth 8)
  write p (← posAdd loc 2) ((val >>> 16).setWidth 8)
  write p (← posAdd loc 3) ((val >>> 24).setWidth 8)
  write p (← posAdd loc 4) ((val >>> 32).setWidth 8)
  write p (← posAdd loc 5) ((val >>> 40).setWidth 8)
  write p (← posAdd loc 6) ((val >>> 48).setWidth 8)
  write p (← posAdd loc 7) ((val >>> 56).setWidth 8)

end MemPage

/-! ### `impl JitMemory` (jit_memory.rs:182-575) -/

namespace JitMemory

/-- `JitMemory::new`, jit_memory.rs:242-263: `contents.add(PAGE_SIZE)`, `contents.add(PAGE_SIZE * 2)`.
    (Only the pages 0, 1, 2 exist.) -/
def new (contents : Word) (mem : Word → Byte) : JitMemory where
  page := 0
  pages := fun p => MemPage.new (contents + BitVec.ofNat 64 (PAGE_SIZE * p))
  labels := []
  mem := mem

/-- `Deref`, jit_memory.rs:182-193 -/
def cur : M Page := fun _ t => .ok t.page t

/-- `select_page`, jit_memory.rs:265-268 -/
def select_page (page : Nat) : M Unit := fun _ t =>
  if page < 2 then .ok () { t with page := page } else .fault (.panic .assertFailed) t

/-- `include`, jit_memory.rs:274-276 -/
def includes (ptr : Word) : M Bool := do
  let t ← M.get
  let top ← MemPage.address t.page (BitVec.ofNat 64 (PAGE_SIZE * 2))
  return decide ((t.pages t.page).contents.toNat ≤ ptr.toNat) && decide (ptr.toNat < top.toNat)

/-- `label`, jit_memory.rs:313-315, lib.rs:330-334 -/
def label : M DestLabel := fun _ t =>
  .ok t.labels.length { t with labels := t.labels ++ [⟨none, []⟩] }

/-- `self.constants.push(..)` on the current page. -/
def pushConstant (d : DataType) (l : DestLabel) : M Unit :=
  M.modify fun t => t.updPage t.page fun pg => { pg with constants := pg.constants ++ [(d, l)] }

/-- `self.data.push(..)` on the current page. -/
def pushData (d : DataType) (l : DestLabel) : M Unit :=
  M.modify fun t => t.updPage t.page fun pg => { pg with data := pg.data ++ [(d, l)] }

/-- Index into the label table, lib.rs:337-349 -/
def labelInfo (l : DestLabel) : M LabelInfo := fun _ t =>
  match t.labels[l]? with
  | some i => .ok i t
  | none => .fault (.panic .indexOutOfBounds) t

/-- Assignment through `IndexMut<DestLabel>`, lib.rs:345-349 -/
def modifyLabel (l : DestLabel) (f : LabelInfo → LabelInfo) : M Unit := fun _ t =>
  if l < t.labels.length then .ok () { t with labels := t.labels.modify l f }
  else .fault (.panic .indexOutOfBounds) t

/-- `bind_label`, jit_memory.rs:378-381 -/
def bind_label (l : DestLabel) : M Unit := do
  let page ← cur
  let c ← MemPage.counterOf page
  modifyLabel l fun i => { i with loc := some (page, c) }

/-- `bind_label_with_page`, jit_memory.rs:383-385 -/
def bind_label_with_page (page : Page) (l : DestLabel) : M Unit := do
  checkPage page
  let c ← MemPage.counterOf page
  modifyLabel l fun i => { i with loc := some (page, c) }

/-- `get_label_pos`, jit_memory.rs:393-397 -/
def get_label_pos (l : DestLabel) : M (Page × Word) := do
  let i ← labelInfo l
  match i.loc with
  | some loc => return loc
  | none => M.panic .noPositionBinding

/-- `CodePtr::from`, lib.rs:35-37 -/
def codePtrFrom (ptr : Word) : M Word :=
  if ptr = 0 then M.panic .nullPointer else pure ptr

/-- `get_current_address`, jit_memory.rs:399-402 -/
def get_current_address : M Word := do
  let p ← cur
  let c ← MemPage.counterOf p
  codePtrFrom (← MemPage.address p c)

/-- `get_label_address`, jit_memory.rs:404-408 -/
def get_label_address (l : DestLabel) : M Word := do
  let loc ← get_label_pos l
  codePtrFrom (← MemPage.address loc.1 loc.2)

/-- `get_label_addr`, `get_label_addr2`, `get_label_u64`, jit_memory.rs:530-552 -/
def get_label_u64 (l : DestLabel) : M Word := do
  let loc ← get_label_pos l
  MemPage.address loc.1 loc.2

/-- `save_reloc`, jit_memory.rs:411-417 -/
def save_reloc (dest : DestLabel) (offset : BitVec 8) : M Unit := do
  let page ← cur
  let pos ← MemPage.counterOf page
  modifyLabel dest fun i => { i with target := i.target ++ [.rel page offset pos] }

/-- `save_absolute_reloc`, jit_memory.rs:420-423 -/
def save_absolute_reloc (page : Page) (dest : DestLabel) : M Unit := do
  let pos ← MemPage.counterOf page
  modifyLabel dest fun i => { i with target := i.target ++ [.abs page pos] }

/-- body of the `match target` in `fill_relocs`, jit_memory.rs:432-447. The difference is one of
    `i128`: it does not overflow. -/
def fillTarget (src_ptr : Word) (x : TargetType) : M Unit := do
  match x with
  | .rel page offset pos =>
    let t ← M.get
    let a ← add (t.pages page).contents pos
    let target_ptr ← add a (offset.setWidth 64)
    let disp : Int := (src_ptr.toNat : Int) - (target_ptr.toNat : Int)
    match Monoasm.JitMemory.i32TryFromInt disp with
    | some d => MemPage.write32 page pos d
    | none => M.panic .relocOverflow
  | .abs page pos => MemPage.write64 page pos src_ptr

/-- inner loop of `fill_relocs`, jit_memory.rs:431-448 -/
def fillTargets (src_ptr : Word) : List TargetType → M Unit
  | [] => pure ()
  | x :: xs => do
    fillTarget src_ptr x
    fillTargets src_ptr xs

/-- body of the outer loop of `fill_relocs`, jit_memory.rs:429-449 -/
def fillLabel (rel : LabelInfo) : M LabelInfo := do
  match rel.loc with
  | some (src_page, src_pos) =>
    let t ← M.get
    let src_ptr ← add (t.pages src_page).contents src_pos
    fillTargets src_ptr rel.target
    return { rel with target := [] }
  | none => return rel

/-- outer loop of `fill_relocs`, jit_memory.rs:428-450 -/
def fillLabels : List LabelInfo → M (List LabelInfo)
  | [] => return []
  | r :: rs => do
    let r' ← fillLabel r
    let rs' ← fillLabels rs
    return r' :: rs'

/-- `fill_relocs`, jit_memory.rs:426-452 -/
def fill_relocs : M Unit := do
  let t ← M.get
  let reloc := t.labels
  M.modify fun t => { t with labels := [] }
  let reloc ← fillLabels reloc
  M.modify fun t => { t with labels := reloc }

/-- `for _ in 0..size { self[Page(id)].emitb(0); }`, jit_memory.rs:473-475 and 511-513 -/
def emitZeros (p : Page) : Nat → M Unit
  | 0 => pure ()
  | n + 1 => do
    MemPage.emitb p 0
    emitZeros p n

/-- loop bodies of `resolve_constants` and `resolve_data`, jit_memory.rs:459-487, 497-525 -/
def resolveOne (p : Page) (c : DataType) (l : DestLabel) : M Unit := do
  match c with
  | .u64 val =>
    MemPage.align p 15
    bind_label_with_page p l
    MemPage.emitq p val
  | .u32 val =>
    MemPage.align p 3
    bind_label_with_page p l
    MemPage.emitl p val
  | .bytes size =>
    MemPage.align p 15
    bind_label_with_page p l
    emitZeros p size
  | .absAddress lbl =>
    MemPage.align p 7
    bind_label_with_page p l
    save_absolute_reloc p lbl
    MemPage.emitq p 0
  | .align8 =>
    MemPage.align p 7
    bind_label_with_page p l

/-- `for (c, label) in constants { .. }`, jit_memory.rs:458-488, 496-526 -/
def resolveList (p : Page) : List (DataType × DestLabel) → M Unit
  | [] => pure ()
  | (c, l) :: rest => do
    resolveOne p c l
    resolveList p rest

/-- one iteration of the outer loop of `resolve_constants`, jit_memory.rs:457-488 -/
def resolveConstantsOf (id : Page) : M Unit := do
  let t ← M.get
  let constants := (t.pages id).constants
  M.modify fun t => t.updPage id fun pg => { pg with constants := [] }
  resolveList id constants

/-- one iteration of the outer loop of `resolve_data`, jit_memory.rs:495-526 -/
def resolveDataOf (id : Page) : M Unit := do
  let t ← M.get
  let data := (t.pages id).data
  M.modify fun t => t.updPage id fun pg => { pg with data := [] }
  resolveList DATA_PAGE data

/-- first loop body of `finalize`, jit_memory.rs:281-284 -/
def openBlock (pg : MemPage) : MemPage :=
  { pg with
    code_len := pg.counter
    code_block := pg.code_block ++ [(pg.code_block_top, pg.counter, 0)] }

/-- second loop body of `finalize`, jit_memory.rs:289 -/
def closeBlock (pg : MemPage) : MemPage :=
  { pg with
    code_block := pg.code_block.modify (pg.code_block.length - 1) fun b => (b.1, b.2.1, pg.counter) }

/-- third loop body of `finalize`, jit_memory.rs:293 -/
def topBlock (pg : MemPage) : MemPage := { pg with code_block_top := pg.counter }

/-- `for page in &mut self.pages { f }`, jit_memory.rs:280,288,292 -/
def forPages (f : MemPage → MemPage) : M Unit :=
  M.modify fun t => { t with pages := fun p => if p < 3 then f (t.pages p) else t.pages p }

/-- `finalize`, jit_memory.rs:279-295 -/
def finalize : M Unit := do
  forPages openBlock
  resolveConstantsOf 0
  resolveConstantsOf 1
  resolveDataOf 0
  resolveDataOf 1
  forPages closeBlock
  fill_relocs
  forPages topBlock

/-- A store of one byte through a raw pointer. -/
def rawWrite (a : Word) (v : Byte) : M Unit := M.modify fun t => { t with mem := upd t.mem a v }

/-- `apply_jmp_patch_address`, jit_memory.rs:570-574, with `Sub<CodePtr>`, lib.rs:14-19. The four bytes
    are those from `patch_point.as_ptr().add(1)` on. -/
def apply_jmp_patch_address (patch_point : Word) (jmp_dest : DestLabel) : M Unit := do
  let dest ← get_label_address jmp_dest
  let d ← subSigned dest patch_point
  let offset ← subSigned d 5
  let v : BitVec 32 := offset.setWidth 32
  let a ← ptrAdd patch_point 1
  rawWrite a (v.setWidth 8)
  rawWrite (← ptrAdd a 1) ((v >>> 8).setWidth 8)
  rawWrite (← ptrAdd a 2) ((v >>> 16).setWidth 8)
  rawWrite (← ptrAdd a 3) ((v >>> 24).setWidth 8)

/-- `apply_jmp_patch`, jit_memory.rs:562-565 -/
def apply_jmp_patch (patch_point jmp_dest : DestLabel) : M Unit := do
  let pp ← get_label_address patch_point
  apply_jmp_patch_address pp jmp_dest

end JitMemory

/-- `-x` on `i32` (parse.rs:446, 462): `none` if the overflow check fires. -/
def neg32 (chk : Bool) (x : BitVec 32) : Option (BitVec 32) :=
  if chk ∧ x = BitVec.intMin 32 then none else some (-x)

end Monoasm.Machine
