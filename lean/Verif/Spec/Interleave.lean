import Verif.Spec.Past
import Verif.Spec.Mentions
import Verif.Model.Eval
/-
  Vocabulary for code generators that work on several pages.

  A statement `⟨p, op, x⟩` selects page `p` and makes the call `op`; if the call creates a label,
  the label is kept in the variable `x`. Inside `op` labels are given by variables. Variables below
  `n` hold the labels that exist when the generator starts (variable `l` holds label `l`).
-/

namespace Monoasm

def Disp.rename (f : Nat → DestLabel) : Disp → Disp
  | .label l => .label (f l)
  | d => d

def Rm.rename (f : Nat → DestLabel) (rm : Rm) : Rm :=
  ⟨rm.base, match rm.mode with
    | .reg => .reg
    | .ind sc d => .ind sc (d.rename f)⟩

def EncCall.rename (f : Nat → DestLabel) : EncCall → EncCall
  | .enc_o op reg => .enc_o op reg
  | .enc_oi op reg => .enc_oi op reg
  | .enc_oi_byte op reg => .enc_oi_byte op reg
  | .enc_rexw_o op reg => .enc_rexw_o op reg
  | .enc_mi op rm imm => .enc_mi op (rm.rename f) imm
  | .enc_rexw_mi op rm imm => .enc_rexw_mi op (rm.rename f) imm
  | .enc_mi_byte op rm imm => .enc_mi_byte op (rm.rename f) imm
  | .enc_mr op reg rm => .enc_mr op reg (rm.rename f)
  | .enc_mr_byte op reg rm => .enc_mr_byte op reg (rm.rename f)
  | .enc_rexw_mr op reg rm => .enc_rexw_mr op reg (rm.rename f)
  | .enc_m_byte op rm => .enc_m_byte op (rm.rename f)
  | .enc_d op dest => .enc_d op (f dest)
  | .enc_digit op rm digit => .enc_digit op (rm.rename f) digit
  | .enc_digit_imm op rm digit imm => .enc_digit_imm op (rm.rename f) digit imm
  | .enc_digit_imm_byte op op_al rm digit imm => .enc_digit_imm_byte op op_al (rm.rename f) digit imm
  | .enc_rexw_digit op rm digit imm => .enc_rexw_digit op (rm.rename f) digit imm

def NewCall.rename (f : Nat → DestLabel) : NewCall → NewCall
  | .abs_address l => .abs_address (f l)
  | c => c

/-- The call with every variable `x` replaced by the label `f x`. -/
def Op.rename (f : Nat → DestLabel) : Op → Op
  | .select_page p => .select_page p
  | .cur c => .cur c
  | .page p c => .page p c
  | .emit bs => .emit bs
  | .new c => .new (c.rename f)
  | .bind_label l => .bind_label (f l)
  | .bind_label_with_page p l => .bind_label_with_page p (f l)
  | .save_reloc l off => .save_reloc (f l) off
  | .enc c => .enc (c.rename f)
  | .inst i => .inst (i.map id f)
  | .finalize => .finalize
  | .apply_jmp_patch a b => .apply_jmp_patch (f a) (f b)
  | .apply_jmp_patch_address a l => .apply_jmp_patch_address a (f l)

def Disp.labels : Disp → List DestLabel
  | .label l => [l]
  | _ => []

def Rm.labels (rm : Rm) : List DestLabel :=
  match rm.mode with
  | .reg => []
  | .ind _ d => d.labels

def EncCall.labels : EncCall → List DestLabel
  | .enc_o _ _ | .enc_oi _ _ | .enc_oi_byte _ _ | .enc_rexw_o _ _ => []
  | .enc_mi _ rm _ | .enc_rexw_mi _ rm _ | .enc_mi_byte _ rm _ | .enc_mr _ _ rm | .enc_mr_byte _ _ rm
  | .enc_rexw_mr _ _ rm | .enc_m_byte _ rm | .enc_digit _ rm _ | .enc_digit_imm _ rm _ _
  | .enc_digit_imm_byte _ _ rm _ _ | .enc_rexw_digit _ rm _ _ => rm.labels
  | .enc_d _ dest => [dest]

/-- The labels among the arguments of a call. -/
def Op.labels : Op → List DestLabel
  | .select_page _ | .cur _ | .page _ _ | .emit _ | .finalize => []
  | .new (.abs_address l) => [l]
  | .new _ => []
  | .bind_label l | .bind_label_with_page _ l | .save_reloc l _ | .apply_jmp_patch_address _ l => [l]
  | .enc c => c.labels
  | .inst i => i.labels
  | .apply_jmp_patch a b => [a, b]

end Monoasm

namespace Spec
open Monoasm

structure Stmt where
  page : Page
  op : Op
  var : Nat

/-- The variable a statement assigns. -/
def Stmt.assigned (st : Stmt) : List Nat :=
  match st.op with
  | .new _ => [st.var]
  | _ => []

/-- The variables a program assigns, in order. -/
def assigned (T : List Stmt) : List Nat := T.flatMap Stmt.assigned

/-- The label held by variable `x` when `vars` have been assigned so far, on top of the `n` labels
    that existed before: labels are numbered in the order of their creation. -/
def valueOf (n : Nat) (vars : List Nat) (x : Nat) : DestLabel :=
  if x < n then x else n + vars.idxOf x

/-- The API calls made by a program. -/
def calls (n : Nat) : List Nat → List Stmt → List Op
  | _, [] => []
  | vars, st :: T =>
    .select_page st.page :: st.op.rename (valueOf n vars) :: calls n (vars ++ st.assigned) T

/-- `x` has a value. -/
def InScope (n : Nat) (vars : List Nat) (x : Nat) : Prop := x < n ∨ x ∈ vars

/-- Assumptions on a program: statements work on the page they select, variables are assigned
    once, and no label is bound by statements for different pages. -/
structure Orderly (n : Nat) (T : List Stmt) : Prop where
  onCurrent : ∀ st ∈ T, st.op.onCurrent ∧ ∀ l off, st.op ≠ .save_reloc l off
  once : (assigned T).Nodup
  fresh : ∀ x ∈ assigned T, n ≤ x
  binder : ∀ st ∈ T, ∀ st' ∈ T, ∀ x, st.op.binds x → st'.op.binds x → st.page = st'.page

/-- Variables are assigned before they are used. -/
def Scoped (n : Nat) (T : List Stmt) : Prop :=
  ∀ a st b, T = a ++ st :: b → ∀ x ∈ st.op.labels, InScope n (assigned a) x

/-- `T` and `T'` are interleavings of the same per-page programs. -/
def Interleaved (T T' : List Stmt) : Prop :=
  ∀ p, T.filter (fun st => st.page = p) = T'.filter (fun st => st.page = p)

/-- Addresses to be stored by the next `finalize` are addresses of existing labels. -/
def Closed (s : JitMemory) : Prop :=
  ∀ p x l, (DataType.absAddress x, l) ∈ (s.pages p).constants ++ (s.pages p).data → (x : Nat) < s.labels.length

end Spec
