import Verif.Spec.Slots
/-
  Vocabulary for properties of histories.
-/

namespace Spec
open Monoasm

/-- `P` holds of each call and the state in which it is made. -/
def Along (P : JitMemory → Op → Prop) (s : JitMemory) : List Op → Prop
  | [] => True
  | op :: ops => P s op ∧ Along P (op.run s).state ops

/-- Addresses a call overwrites although they were emitted before: indexed writes `jit[pos] = v`
    and jump patches. -/
def Overwrites (s : JitMemory) : Op → Nat → Prop
  | .cur (.poke pos _), a => a = (s.pages s.page).contents + pos
  | .page p (.poke pos _), a => a = (s.pages p).contents + pos
  | .apply_jmp_patch l _, a => ∃ x, JitMemory.get_label_address l s = .ok x s ∧ x + 1 ≤ a ∧ a < x + 5
  | .apply_jmp_patch_address x _, a => x + 1 ≤ a ∧ a < x + 5
  | _, _ => False

/-- The history makes no direct call of `save_reloc`. (`save_reloc` announces a field that the
    caller must emit itself; the encoders and the macro do that.) -/
def NoRaw (h : List Op) : Prop := ∀ op ∈ h, ∀ l off, op ≠ .save_reloc l off

/-- Nothing of the history overwrites the byte at position `pos` of page `p`. -/
def Spares (p : Page) (pos : Nat) (s : JitMemory) (h : List Op) : Prop :=
  Along (fun s op => ¬ Overwrites s op ((s.pages p).contents + pos)) s h

/-- `finalize` is not called. -/
def NoFinalize (h : List Op) : Prop := .finalize ∉ h

/-- `l` is still unbound after each `finalize` of the history. -/
def UnboundAtFinalize (l : DestLabel) (s : JitMemory) (h : List Op) : Prop :=
  Along (fun s op => op = .finalize →
    ∀ s', JitMemory.finalize s = .ok () s' → JitMemory.get_label_pos l s' = .panic .noPositionBinding s') s h

/-- Nothing of the history overwrites a byte of the field `t`. -/
def SparesField (t : TargetType) (s : JitMemory) (h : List Op) : Prop :=
  ∀ pos, Covers t t.page pos → Spares t.page pos s h

/-- Nothing of the history overwrites one of the `n` bytes from address `a` on. -/
def SparesRange (a n : Nat) (s : JitMemory) (h : List Op) : Prop :=
  Along (fun s op => ∀ x, a ≤ x → x < a + n → ¬ Overwrites s op x) s h

/-- No call of the history overwrites a field that is pending at the time of the call. -/
def SparesPending (s : JitMemory) (h : List Op) : Prop :=
  Along (fun s op => ∀ l t, t ∈ targets s l → Live t → ∀ pos, Covers t t.page pos →
    ¬ Overwrites s op ((s.pages t.page).contents + pos)) s h

/-- The field `t` leads to address `a`: a relative field, as a signed number, is the distance from
    the field plus the recorded offset, and an absolute field is the address itself. -/
def LeadsTo (base : Nat) (mem : Nat → Byte) (a : Nat) : TargetType → Prop
  | .rel p off pos => ∃ v : BitVec 32, bytes mem (addrOf base p pos) 4 = littleEndian 4 v.toNat
      ∧ v.toInt + (addrOf base p pos + off.toNat : Nat) = a
  | .abs p pos => bytes mem (addrOf base p pos) 8 = littleEndian 8 a

end Spec
