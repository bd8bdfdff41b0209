import Verif.Proofs.Safe
import Verif.Spec.Interleave
/-
  The code generated for a statement does not depend on the numbers of labels.
-/

set_option linter.unusedSimpArgs false

namespace Monoasm
variable (f : Nat → DestLabel)

def Item.rename : Item → Item
  | .rel l off => .rel (f l) off
  | .bind l => .bind (f l)
  | it => it

def ren (its : List Item) : List Item := its.map (Item.rename f)

@[simp] theorem ren_nil : ren f [] = [] := rfl
@[simp] theorem ren_cons (a b) : ren f (a :: b) = a.rename f :: ren f b := rfl
@[simp] theorem ren_append (a b) : ren f (a ++ b) = ren f a ++ ren f b := List.map_append
@[simp] theorem ren_i8 (bs : List Byte) : ren f (bs.map .i8) = bs.map .i8 := by
  simp [ren, Item.rename, Function.comp_def]
@[simp] theorem rename_i8 (v) : (Item.i8 v).rename f = .i8 v := rfl
@[simp] theorem rename_i16 (v) : (Item.i16 v).rename f = .i16 v := rfl
@[simp] theorem rename_i32 (v) : (Item.i32 v).rename f = .i32 v := rfl
@[simp] theorem rename_i64 (v) : (Item.i64 v).rename f = .i64 v := rfl
@[simp] theorem rename_fail (v) : (Item.fail v).rename f = .fail v := rfl
@[simp] theorem rename_rel (l off) : (Item.rel l off).rename f = .rel (f l) off := rfl
@[simp] theorem rename_bind (l) : (Item.bind l).rename f = .bind (f l) := rfl

@[simp] theorem ren_ite (c : Prop) [Decidable c] (a b) : ren f (if c then a else b) = if c then ren f a else ren f b := by
  split <;> rfl

@[simp] theorem ren_rex (k r b x m) : ren f (rexItems k r b x m) = rexItems k r b x m := by
  cases k <;> simp only [rexItems] <;> (repeat' split) <;> simp

@[simp] theorem rename_sib (a b c) : (sibItem a b c).rename f = sibItem a b c := by
  simp only [sibItem]; split <;> rfl

@[simp] theorem ren_scale (a b) : ren f (scaleItems a b) = scaleItems a b := by
  cases a <;> simp [scaleItems]

@[simp] theorem ren_imm (imm) : ren f (immItems imm) = immItems imm := by
  cases imm <;> rfl

@[simp] theorem ren_disp (imm d) : ren f (dispItems imm d) = dispItems imm (d.rename f) := by
  cases d <;> rfl

@[simp] theorem rex_mode (k r b x sc d) : rexItems k r b x (.ind sc (Disp.rename f d)) = rexItems k r b x (.ind sc d) := by
  cases k <;> simp [rexItems]

theorem rex_any (k r b x sc d) : rexItems k r b x (.ind sc d) = rexItems k r b x (.ind .none .none) := by
  cases k <;> simp [rexItems]

@[simp] theorem encode_mode (sc d) : (Mode.ind sc (Disp.rename f d)).encode = (Mode.ind sc d).encode := by
  cases d <;> rfl

@[simp] theorem modrm_mode (mm sc d b) : modrmByte mm (.ind sc (Disp.rename f d)) b = modrmByte mm (.ind sc d) b := by
  cases sc <;> simp only [modrmByte, encode_mode]

@[simp] theorem rename_eq_none (d : Disp) : d.rename f = .none ↔ d = .none := by cases d <;> simp [Disp.rename]

theorem enc_rename (op k mm rm imm) : encItems op k mm (Rm.rename f rm) imm = ren f (encItems op k mm rm imm) := by
  obtain ⟨base, mode⟩ := rm
  cases mode with
  | reg =>
    simp only [Rm.rename, encItems, Rm.rip_ind_from]
    repeat' split
    all_goals simp_all
  | ind sc d =>
    simp only [Rm.rename, encItems, Rm.rip_ind_from]
    by_cases h1 : (modrmReg mm).is_rip
    · simp [h1]
    simp only [h1]
    by_cases h2 : base.is_rip
    · simp only [h2, if_true]
      cases sc <;> cases d <;> simp [Disp.rename, Mode.disp, dispItems, rex_any, h1]
    · simp only [h2]
      by_cases h4 : (base.num &&& 7#8) = 4#8
      · cases sc <;> simp [h4]
      · by_cases h5 : d = .none ∧ (base.num &&& 7#8) = 5#8
        · have h5' : d.rename f = .none ∧ (base.num &&& 7#8) = 5#8 := by simpa using h5
          simp only [h5.1]
          simp [Disp.rename, h4, h5.2]
        · have h5' : ¬ (d.rename f = .none ∧ (base.num &&& 7#8) = 5#8) := by simpa using h5
          simp [h4, h5]

section
variable (a : IndAddr V DestLabel) (rm : RmOperand V DestLabel) (x : XmOperand V DestLabel)

@[simp] theorem toReg_map (r : Register V) : (r.map id).toReg = r.toReg := by cases r <;> rfl
@[simp] theorem toReg_mapx (r : XmmReg V) : (r.map id).toReg = r.toReg := by cases r <;> rfl
@[simp] theorem toRm_ind_rename : (a.map id f).toRm = a.toRm.rename f := by
  obtain ⟨b, sc, d⟩ := a
  simp only [IndAddr.toRm, IndAddr.map, toReg_map, Rm.rename, Rm.ind, Rm.mk.injEq, Mode.ind.injEq, true_and]
  refine ⟨by cases sc <;> simp [MScale.map, MScale.toScale], ?_⟩
  have : ∀ v, (Disp.from_disp v).rename f = Disp.from_disp v := by
    intro v; simp only [Disp.from_disp]; split
    · rfl
    · split <;> rfl
  cases d with
  | imm v => simp [MDisp.map, MDisp.toDisp, this]
  | expr n v => cases n <;> simp [MDisp.map, MDisp.toDisp, this]
  | label l => rfl
@[simp] theorem rename_reg (r) : (Rm.reg r).rename f = Rm.reg r := rfl
@[simp] theorem toRm_rm_rename : (rm.map id f).toRm = rm.toRm.rename f := by
  cases rm <;> simp [RmOperand.map, RmOperand.toRm]
@[simp] theorem toRm_xm_rename : (x.map id f).toRm = x.toRm.rename f := by
  cases x <;> simp [XmOperand.map, XmOperand.toRm]
end

section
open It
variable (rm : Rm)
@[simp] theorem rn_o (k op r) : ren f (o k op r) = o k op r := by simp [o]
@[simp] theorem rn_mi (op imm) : mi op (rm.rename f) imm = ren f (mi op rm imm) := enc_rename ..
@[simp] theorem rn_rexw_mi (op imm) : rexw_mi op (rm.rename f) imm = ren f (rexw_mi op rm imm) := enc_rename ..
@[simp] theorem rn_mi_byte (op imm) : mi_byte op (rm.rename f) imm = ren f (mi_byte op rm imm) := enc_rename ..
@[simp] theorem rn_mr (op r) : mr op r (rm.rename f) = ren f (mr op r rm) := enc_rename ..
@[simp] theorem rn_mr_byte (op r) : mr_byte op r (rm.rename f) = ren f (mr_byte op r rm) := enc_rename ..
@[simp] theorem rn_rexw_mr (op r) : rexw_mr op r (rm.rename f) = ren f (rexw_mr op r rm) := enc_rename ..
@[simp] theorem rn_m_byte (op) : m_byte op (rm.rename f) = ren f (m_byte op rm) := enc_rename ..
@[simp] theorem rn_digit (op d) : digit op (rm.rename f) d = ren f (digit op rm d) := enc_rename ..
@[simp] theorem rn_digit_imm (op d imm) : digit_imm op (rm.rename f) d imm = ren f (digit_imm op rm d imm) := enc_rename ..
@[simp] theorem rn_rexw_digit (op d imm) : rexw_digit op (rm.rename f) d imm = ren f (rexw_digit op rm d imm) := enc_rename ..
@[simp] theorem rn_is_rax : (rm.rename f).is_rax = rm.is_rax := by
  obtain ⟨b, m⟩ := rm; cases m <;> simp [Rm.is_rax, Rm.rename]
@[simp] theorem rn_is_reg : (rm.rename f).is_reg = rm.is_reg := by
  obtain ⟨b, m⟩ := rm; cases m <;> simp [Rm.is_reg, Rm.rename]
@[simp] theorem rn_digit_imm_byte (op al d imm) :
    digit_imm_byte op al (rm.rename f) d imm = ren f (digit_imm_byte op al rm d imm) := by
  simp only [digit_imm_byte, rn_is_rax, rn_is_reg, enc_rename]
  repeat' split
  all_goals simp
@[simp] theorem rn_d (op l) : d op (f l) = ren f (d op l) := by simp [d]
/-- registers do not mention labels -/
@[simp] theorem rr_mr (op r r') : ren f (mr op r (Rm.reg r')) = mr op r (Rm.reg r') := (rn_mr f _ op r).symm
@[simp] theorem rr_rexw_mr (op r r') : ren f (rexw_mr op r (Rm.reg r')) = rexw_mr op r (Rm.reg r') := (rn_rexw_mr f _ op r).symm
@[simp] theorem rr_mr_byte (op r r') : ren f (mr_byte op r (Rm.reg r')) = mr_byte op r (Rm.reg r') := (rn_mr_byte f _ op r).symm
@[simp] theorem rr_rexw_mi (op r imm) : ren f (rexw_mi op (Rm.reg r) imm) = rexw_mi op (Rm.reg r) imm := (rn_rexw_mi f _ op imm).symm
@[simp] theorem rr_mi_byte (op r imm) : ren f (mi_byte op (Rm.reg r) imm) = mi_byte op (Rm.reg r) imm := (rn_mi_byte f _ op imm).symm
@[simp] theorem rr_digit (op r d) : ren f (digit op (Rm.reg r) d) = digit op (Rm.reg r) d := (rn_digit f _ op d).symm

abbrev exRen (e : Except CompileError (List Item)) : Except CompileError (List Item) := e.map (ren f)

theorem movq_rename (a b) : It.movq (a.map id f) (b.map id f) = exRen f (It.movq a b) := by
  cases a <;> cases b <;> simp [It.movq, MovOperand.map, Except.map]
  · split <;> simp [Except.map]
  · rename_i size; cases size <;> simp [Except.map]; split <;> simp

theorem movl_rename (a b) : It.movl (a.map id f) (b.map id f) = exRen f (It.movl a b) := by
  cases a <;> cases b <;> simp [It.movl, RmOperand.map, RmiOperand.map, RmOperand.toRm, Except.map] <;> split <;> simp

theorem movw_rename (a b) : It.movw (a.map id f) (b.map id f) = exRen f (It.movw a b) := by
  cases a <;> cases b <;> simp [It.movw, RmOperand.map, RmiOperand.map, RmOperand.toRm, Except.map] <;> split <;> simp

theorem movb_rename (a b) : It.movb (a.map id f) (b.map id f) = exRen f (It.movb a b) := by
  cases a <;> cases b <;> simp [It.movb, RmOperand.map, RmiOperand.map, RmOperand.toRm, Except.map] <;> split <;> simp

theorem binary_rename (sz x y a b) : It.binary_op sz x y (a.map id f) (b.map id f) = exRen f (It.binary_op sz x y a b) := by
  cases sz <;> cases b <;>
    simp only [It.binary_op, It.binary_opq, It.binary_opl, It.binary_opw, It.binary_opb, RmiOperand.map, id]
  all_goals first
    | (simp only [toRm_rm_rename, Except.map]; repeat' split
       all_goals simp; done)
    | (simp [Except.map]; done)
    | (cases a <;> simp [RmOperand.map, Except.map]; done)

theorem shift_rename (sz y a b) : It.shift_op sz y (a.map id f) (b.map id) = exRen f (It.shift_op sz y a b) := by
  cases sz <;> cases b <;> simp only [It.shift_op, RiOperand.map, id, toReg_map, toRm_rm_rename, Except.map]
  all_goals (repeat' split)
  all_goals simp

theorem sd_rename (op a) (b : XmOperand V DestLabel) : It.sd op a (b.map id f) = ren f (It.sd op a b) := by simp [It.sd]

theorem pushpop_rename (op m) (a : RmOperand V DestLabel) : It.push_pop op m (a.map id f) = ren f (It.push_pop op m a) := by
  cases a <;> simp [It.push_pop, RmOperand.map]

theorem count_rename (sz op r) (a : RmOperand V DestLabel) :
    It.count_op sz op r (a.map id f) = exRen f (It.count_op sz op r a) := by
  cases sz <;> simp [It.count_op, Except.map]

theorem items_rename (i : Inst V DestLabel) : items (i.map id f) = exRen f (items i) := by
  cases i
  case Movq => exact movq_rename ..
  case Movl => exact movl_rename ..
  case Movw => exact movw_rename ..
  case Movb => exact movb_rename ..
  case Add | Sub | Adc | Sbb | And | Or | Xor | Cmp => exact binary_rename ..
  case Shl | Shr | Sal | Sar | Rol | Ror => exact shift_rename ..
  case Lzcnt | Tzcnt | Popcnt => simp only [Inst.map, items, It.count_op, toReg_map]; exact count_rename ..
  case Pushq | Popq => simp only [Inst.map, items, pushpop_rename, exRen, Except.map]
  case Movsd a b =>
    cases a <;> cases b <;> simp [Inst.map, items, XmOperand.map, It.sd, Except.map, XmOperand.toRm]
  case Xchg sz a b =>
    cases sz <;> cases a <;> cases b <;> simp [Inst.map, items, RmOperand.map, Except.map]
  case Testq a b =>
    cases a <;> cases b <;> simp [Inst.map, items, RmOperand.map, RiOperand.map, Except.map, RmOperand.toRm] <;> split <;> simp
  case Testb a b =>
    cases a <;> cases b <;> simp [Inst.map, items, RmOperand.map, RiOperand.map, Except.map, RmOperand.toRm] <;> split <;> simp
  case Imul a b =>
    cases a <;> cases b <;> simp [Inst.map, items, RmOperand.map, RmiOperand.map, Except.map]
  case Lea a b =>
    cases a <;> cases b <;> simp [Inst.map, items, RmOperand.map, Except.map]
  case Cmovcc sz _ _ _ => cases sz <;> simp [Inst.map, items, Except.map]
  case Call d =>
    cases d <;> simp [Inst.map, items, Dest.map, Except.map]
    split <;> simp
  case Jmp d => cases d <;> simp [Inst.map, items, Dest.map, Except.map]
  all_goals simp [Inst.map, items, Except.map, It.sd]

theorem encCall_rename (c : EncCall) : (c.rename f).items = ren f c.items := by
  cases c <;> simp [EncCall.rename, EncCall.items]

theorem itemsOf_rename {op : Op} {its} (h : op.itemsOf = some its) : (op.rename f).itemsOf = some (ren f its) := by
  cases op <;> simp only [Op.itemsOf, Option.some.injEq, reduceCtorEq] at h
  case emit bs => subst h; simp [Op.rename, Op.itemsOf]
  case bind_label l => subst h; simp [Op.rename, Op.itemsOf]
  case enc c => subst h; simp [Op.rename, Op.itemsOf, encCall_rename]
  case inst i =>
    simp only [Op.rename, Op.itemsOf, items_rename]
    cases e : items i with
    | ok l => rw [e] at h; cases h; rfl
    | error l => rw [e] at h; cases h; rfl
end

end Monoasm
