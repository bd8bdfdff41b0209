import Verif.Model.Compile
/-
  Every macro statement runs a fixed list of elementary actions ("items") that does not depend on
  the state of the `JitMemory`. This file defines the items and proves `compile` equal to running
  them.
-/

set_option linter.unusedSimpArgs false

namespace Monoasm

instance : LawfulMonad M := LawfulMonad.mk'
  (id_map := by
    intro α x; funext s; simp only [Functor.map, bind, pure, M.bind, M.pure]
    cases x s <;> rfl)
  (pure_bind := by intros; rfl)
  (bind_assoc := by
    intro α β γ x f g; funext s; simp only [bind, M.bind]
    cases x s <;> rfl)

@[simp] theorem M.panic_bind {α β} (e : Panic) (f : α → M β) :
    (M.panic e : M α) >>= f = M.panic e := rfl

@[simp] theorem M.assert_true : M.assert true = (Pure.pure () : M Unit) := by
  funext s; simp [M.assert, Pure.pure, M.pure]
@[simp] theorem M.assert_false : M.assert false = M.panic .assertFailed := by
  funext s; simp [M.assert, M.panic]

/-- Elementary actions. -/
inductive Item where
  | i8 (v : BitVec 8)
  | i16 (v : BitVec 16)
  | i32 (v : BitVec 32)
  | i64 (v : BitVec 64)
  /-- `save_reloc` followed by four zero bytes -/
  | rel (l : DestLabel) (off : BitVec 8)
  | bind (l : DestLabel)
  | fail (e : Panic)
deriving DecidableEq, Repr

open JitMemory

def Item.run : Item → M Unit
  | .i8 v => emitb v
  | .i16 v => emitw v
  | .i32 v => emitl v
  | .i64 v => emitq v
  | .rel l off => do save_reloc l off; emitl 0
  | .bind l => bind_label l
  | .fail e => M.panic e

def runItems : List Item → M Unit
  | [] => pure ()
  | i :: is => do i.run; runItems is

@[simp] theorem runItems_nil : runItems [] = pure () := rfl
theorem runItems_cons (i is) : runItems (i :: is) = (do i.run; runItems is) := rfl

theorem runItems_append (a b : List Item) : runItems (a ++ b) = (do runItems a; runItems b) := by
  induction a with
  | nil => simp [runItems]
  | cons i is ih => simp [runItems, ih]

@[simp] theorem runItems_single (i : Item) : runItems [i] = i.run := by
  simp [runItems]

theorem emit_eq (bs : List Byte) : emit bs = runItems (bs.map .i8) := by
  induction bs with
  | nil => rfl
  | cons b bs ih => simp [emit, runItems, ih, Item.run]

def modrmByte (mm : ModRM) (mode : Mode) (base : Reg) : Byte :=
  let base : Reg := match mode with
    | .reg => base
    | .ind .none _ => base
    | .ind _ _ => ⟨4⟩
  let r : BitVec 8 := match mm with
    | .digit d => d
    | .reg r => r.num
  mode.encode <<< 6 ||| (r &&& 0b111) <<< 3 ||| (base.num &&& 0b111)

theorem modrm_eq (mm mode base) : modrm mm mode base = emitb (modrmByte mm mode base) := rfl

def rexByte (w : Byte) (reg base index : Reg) : Byte :=
  w ||| (reg.num &&& 0b1000) >>> 1 ||| (index.num &&& 0b1000) >>> 2 ||| (base.num &&& 0b1000) >>> 3

def rexItems (k : Rex) (reg base index : Reg) (mode : Mode) : List Item :=
  match k with
  | .rexw => [.i8 (rexByte 0x48 reg base index)]
  | .none =>
    if reg.num > 7 || base.num > 7 || index.num > 7 then [.i8 (rexByte 0x40 reg base index)] else []
  | .byte =>
    if reg.num > 7 || base.num > 7 || index.num > 7 then [.i8 (rexByte 0x40 reg base index)]
    else if reg.num > 3 || (base.num > 3 && mode = .reg) then [.i8 0x40]
    else []

theorem rexFn_eq (k reg base index mode) :
    rexFn k reg base index mode = runItems (rexItems k reg base index mode) := by
  cases k
  · simp [rexItems]; rfl
  · simp only [rexFn, rex_none, rexItems]
    split
    · simp only [runItems_single]; rfl
    · rfl
  · simp only [rexFn, rex_none_byte, rexItems]
    split
    · simp only [runItems_single]; rfl
    · split
      · simp only [runItems_single]; rfl
      · rfl

def sibItem (scale : BitVec 8) (index base : Reg) : Item :=
  if scale < 4 ∧ index.num < 16 then
    .i8 ((scale <<< 6) ||| ((index.num &&& 0b111) <<< 3) ||| (base.num &&& 0b111))
  else .fail .assertFailed

theorem sib_eq (scale index base) : sib scale index base = (sibItem scale index base).run := by
  simp only [sib, sibItem]
  by_cases h1 : scale < 4 <;> by_cases h2 : index.num < 16 <;>
    simp only [h1, h2, Item.run, decide_true, decide_false, M.assert_true, M.assert_false, pure_bind,
      M.panic_bind, and_self, if_true, and_false, false_and, if_false]

def immItems : Imm → List Item
  | .none => []
  | .b v => [.i8 v]
  | .w v => [.i16 v]
  | .l v => [.i32 v]
  | .q v => [.i64 v]

def dispItems (imm : Imm) : Disp → List Item
  | .none => []
  | .d8 d => [.i8 d]
  | .d32 d => [.i32 d]
  | .label l => [.rel l (4 + imm.offset)]

theorem emit_disp_imm_eq (disp imm) :
    emit_disp_imm disp imm = runItems (dispItems imm disp ++ immItems imm) := by
  simp only [emit_disp_imm]
  cases disp <;> cases imm <;> simp [dispItems, immItems, runItems_cons, Item.run]

def modrmReg : ModRM → Reg
  | .digit _ => ⟨0⟩
  | .reg r => r

def scaleItems (scale : Scale) (base : Reg) : List Item :=
  match scale with
  | .none => []
  | .s1 sc index => [sibItem sc index base]

def encItems (op : List Byte) (k : Rex) (mm : ModRM) (rm : Rm) (imm : Imm) : List Item :=
  if (modrmReg mm).is_rip then [.fail .assertFailed]
  else if rm.base.is_rip then
    match Rm.rip_ind_from rm with
    | .error e => [.fail e]
    | .ok rm =>
      rexItems k (modrmReg mm) rm.base ⟨0⟩ rm.mode ++ op.map .i8
        ++ [.i8 (modrmByte mm (.ind .none .none) rm.base)]
        ++ dispItems imm rm.mode.disp ++ immItems imm
  else match rm.mode with
  | .reg =>
    rexItems k (modrmReg mm) rm.base ⟨0⟩ .reg ++ op.map .i8
      ++ [.i8 (modrmByte mm .reg rm.base)] ++ immItems imm
  | .ind scale disp =>
    if (rm.base.num &&& 0b111) = 4 then
      let (sc, index) : BitVec 8 × Reg := match scale with
        | .none => (0, ⟨4⟩)
        | .s1 sc index => (sc, index)
      rexItems k (modrmReg mm) rm.base index (.ind scale disp) ++ op.map .i8
        ++ [.i8 (modrmByte mm (.ind scale disp) rm.base), sibItem sc index rm.base]
        ++ dispItems imm disp ++ immItems imm
    else
      let disp' := if disp = .none ∧ (rm.base.num &&& 0b111) = 5 then .d8 0 else disp
      rexItems k (modrmReg mm) rm.base scale.index (.ind scale disp) ++ op.map .i8
        ++ [.i8 (modrmByte mm (.ind scale disp') rm.base)] ++ scaleItems scale rm.base
        ++ dispItems imm disp' ++ immItems imm

theorem run_i8 (v) : (Item.i8 v).run = emitb v := rfl

theorem runItems_fail_cons (e is) : runItems (.fail e :: is) = M.panic e := rfl

/-- `encode` after the first assertion. -/
def encode' (op : List Byte) (rex : Rex) (reg : Reg) (modrm_mode : ModRM) (rm : Rm) (imm : Imm) :
    M Unit := do
  if rm.base.is_rip then
    match Rm.rip_ind_from rm with
    | .error e => M.panic e
    | .ok rm =>
      rexFn rex reg rm.base ⟨0⟩ rm.mode
      emit op
      modrm modrm_mode (.ind .none .none) rm.base
      emit_disp_imm rm.mode.disp imm
  else if rm.mode ≠ .reg ∧ (rm.base.num &&& 0b111) = 4 then
    match rm.mode with
    | .ind scale disp =>
      let (sc, index) : BitVec 8 × Reg := match scale with
        | .none => (0, ⟨4⟩)
        | .s1 sc index => (sc, index)
      let base := rm.base
      rexFn rex reg base index rm.mode
      emit op
      modrm modrm_mode rm.mode base
      sib sc index base
      emit_disp_imm disp imm
    | .reg => pure ()   -- `_ => unreachable!()`, excluded by the `if`
  else if rm.mode.is_indirect_no_disp ∧ (rm.base.num &&& 0b111) = 5 then
    let scale := rm.mode.scale
    rexFn rex reg rm.base scale.index rm.mode
    let mode : Mode := .ind scale (.d8 0)
    emit op
    modrm modrm_mode mode rm.base
    match scale with
    | .none => pure ()
    | .s1 sc index => sib sc index rm.base
    emit_disp_imm mode.disp imm
  else
    rexFn rex reg rm.base
      (match rm.mode with
        | .reg => ⟨0⟩
        | .ind scale _ => match scale with
          | .none => ⟨0⟩
          | .s1 _ index => index)
      rm.mode
    emit op
    modrm modrm_mode rm.mode rm.base
    match rm.mode with
    | .reg => pure ()
    | .ind scale _ => match scale with
      | .none => pure ()
      | .s1 sc index => sib sc index rm.base
    emit_disp_imm rm.mode.disp imm

theorem encode_eq (op k mm rm imm) : encode op k mm rm imm = runItems (encItems op k mm rm imm) := by
  obtain ⟨base, mode⟩ := rm
  have hreg : encode op k mm ⟨base, mode⟩ imm
      = (do M.assert (!(modrmReg mm).is_rip)
            encode op k mm ⟨base, mode⟩ imm) := by
    cases mm <;> simp only [encode, modrmReg] <;> cases (Reg.is_rip _) <;> simp
  by_cases hr : (modrmReg mm).is_rip
  · rw [hreg]; simp [hr, Item.run, encItems]
  have hr' : (modrmReg mm).is_rip = false := by simpa using hr
  have : encode op k mm ⟨base, mode⟩ imm = encode' op k (modrmReg mm) mm ⟨base, mode⟩ imm := by
    cases mm <;> simp only [encode, encode', modrmReg] at hr' ⊢ <;>
      simp only [hr', Bool.not_false, M.assert_true, pure_bind] <;> rfl
  rw [this]
  simp only [encode', encItems, hr', Bool.false_eq_true, if_false]
  by_cases hb : base.is_rip
  · simp only [hb, if_true]
    cases h : Rm.rip_ind_from ⟨base, mode⟩ with
    | error e => simp [Item.run]
    | ok rm =>
      simp [rexFn_eq, emit_eq, modrm_eq, emit_disp_imm_eq, runItems_append, Item.run, runItems_cons]
  simp only [hb]
  cases mode with
  | reg =>
    simp [Mode.is_indirect_no_disp, Mode.disp, rexFn_eq, emit_eq, modrm_eq, emit_disp_imm_eq,
      runItems_append, Item.run, runItems_cons, dispItems]
  | ind scale disp =>
    by_cases h4 : (base.num &&& 7#8) = 4#8
    · cases scale <;>
      simp [h4, rexFn_eq, emit_eq, modrm_eq, emit_disp_imm_eq, sib_eq,
        runItems_append, run_i8, runItems_cons]
    · by_cases h5 : (base.num &&& 7#8) = 5#8
      · cases disp <;> cases scale <;>
        simp [h4, h5, Mode.is_indirect_no_disp, Mode.disp, Mode.scale, rexFn_eq, emit_eq, modrm_eq,
          emit_disp_imm_eq, sib_eq, runItems_append, run_i8, runItems_cons, dispItems,
          scaleItems, Scale.index]
      · cases disp <;> cases scale <;>
        simp [h4, h5, Mode.disp, rexFn_eq, emit_eq, modrm_eq,
          emit_disp_imm_eq, sib_eq, runItems_append, run_i8, runItems_cons, dispItems,
          scaleItems, Scale.index]

end Monoasm
