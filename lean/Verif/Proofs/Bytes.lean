import Verif.Proofs.Items
import Verif.Spec.X86
/-
  The bytes written by items, and little-endian fields.
-/

set_option linter.unusedSimpArgs false

namespace Monoasm

def le16 (v : BitVec 16) : List Byte := [v.setWidth 8, (v >>> 8).setWidth 8]
def le32 (v : BitVec 32) : List Byte :=
  [v.setWidth 8, (v >>> 8).setWidth 8, (v >>> 16).setWidth 8, (v >>> 24).setWidth 8]
def le64 (v : BitVec 64) : List Byte :=
  [v.setWidth 8, (v >>> 8).setWidth 8, (v >>> 16).setWidth 8, (v >>> 24).setWidth 8,
   (v >>> 32).setWidth 8, (v >>> 40).setWidth 8, (v >>> 48).setWidth 8, (v >>> 56).setWidth 8]

@[simp] theorem le16_length (v) : (le16 v).length = 2 := rfl
@[simp] theorem le32_length (v) : (le32 v).length = 4 := rfl
@[simp] theorem le64_length (v) : (le64 v).length = 8 := rfl

theorem rd16_le16 (v : BitVec 16) (r) : X86.rd16 (le16 v ++ r) = some (v, r) := by
  simp only [le16, List.cons_append, List.nil_append, X86.rd16, Option.some.injEq, Prod.mk.injEq, and_true]
  ext i hi
  simp only [← BitVec.getLsbD_eq_getElem, BitVec.getLsbD_append, BitVec.getLsbD_setWidth,
    BitVec.getLsbD_ushiftRight]
  by_cases h : i < 8
  · simp [h]
  · have : i - 8 < 8 := by omega
    have e : 8 + (i - 8) = i := by omega
    simp [h, this, e]

theorem rd32_le32 (v : BitVec 32) (r) : X86.rd32 (le32 v ++ r) = some (v, r) := by
  simp only [le32, List.cons_append, List.nil_append, X86.rd32, Option.some.injEq, Prod.mk.injEq, and_true]
  ext i hi
  simp only [← BitVec.getLsbD_eq_getElem, BitVec.getLsbD_append, BitVec.getLsbD_setWidth,
    BitVec.getLsbD_ushiftRight]
  by_cases h : i < 8
  · simp [h]
  by_cases h1 : i < 16
  · have : i - 8 < 8 := by omega
    have e : 8 + (i - 8) = i := by omega
    simp [h, this, e]
  by_cases h2 : i < 24
  · have : ¬ i - 8 < 8 := by omega
    have t : i - 8 - 8 < 8 := by omega
    have e : 16 + (i - 8 - 8) = i := by omega
    simp [h, this, e, t]
  · have : ¬ i - 8 < 8 := by omega
    have t : ¬ i - 8 - 8 < 8 := by omega
    have u : i - 8 - 8 - 8 < 8 := by omega
    have e : 24 + (i - 8 - 8 - 8) = i := by omega
    simp [h, this, e, t, u]

theorem le64_eq (v : BitVec 64) : le64 v = le32 (v.setWidth 32) ++ le32 ((v >>> 32).setWidth 32) := by
  simp only [le64, le32, List.cons_append, List.nil_append, List.cons.injEq, and_true]
  refine ⟨?_, ?_, ?_, ?_, ?_, ?_, ?_, ?_⟩ <;>
  · ext i hi
    have h1 : i < 32 := by omega
    have h2 : 8 + i < 32 := by omega
    have h3 : 16 + i < 32 := by omega
    have h4 : 24 + i < 32 := by omega
    simp [← BitVec.getLsbD_eq_getElem, BitVec.getLsbD_setWidth, h1, h2, h3, h4, hi, ← Nat.add_assoc]

theorem rd64_le64 (v : BitVec 64) (r) : X86.rd64 (le64 v ++ r) = some (v, r) := by
  have h1 := rd32_le32 (v.setWidth 32) []
  have h2 := rd32_le32 ((v >>> 32).setWidth 32) []
  rw [le64_eq]
  simp only [le32, List.cons_append, List.nil_append, X86.rd32, X86.rd64, Option.some.injEq, Prod.mk.injEq, and_true] at *
  have : ∀ (a b c d : BitVec 8) (x y : BitVec 8) (z w : BitVec 8),
      a ++ b ++ c ++ d ++ x ++ y ++ z ++ w = (a ++ b ++ c ++ d) ++ (x ++ y ++ z ++ w) := by
    intros
    ext i hi
    simp only [← BitVec.getLsbD_eq_getElem, BitVec.getLsbD_append]
    repeat' split
    all_goals first | rfl | omega | (congr 1; omega)
  rw [this, h1, h2]
  ext i hi
  simp only [← BitVec.getLsbD_eq_getElem, BitVec.getLsbD_append, BitVec.getLsbD_setWidth,
    BitVec.getLsbD_ushiftRight]
  by_cases h : i < 32
  · simp [h]
  · have : i - 32 < 32 := by omega
    have e : 32 + (i - 32) = i := by omega
    simp [h, this, e]

/-- Bytes of an item; `ψ l` is what the 4-byte slot of a reference to `l` holds. -/
def Item.bytes (ψ : DestLabel → BitVec 32) : Item → List Byte
  | .i8 v => [v]
  | .i16 v => le16 v
  | .i32 v => le32 v
  | .i64 v => le64 v
  | .rel l _ => le32 (ψ l)
  | .bind _ => []
  | .fail _ => []

def bytesOf (ψ : DestLabel → BitVec 32) (its : List Item) : List Byte := its.flatMap (Item.bytes ψ)

@[simp] theorem bytesOf_nil (ψ) : bytesOf ψ [] = [] := rfl
@[simp] theorem bytesOf_cons (ψ i is) : bytesOf ψ (i :: is) = i.bytes ψ ++ bytesOf ψ is := rfl
@[simp] theorem bytesOf_append (ψ a b) : bytesOf ψ (a ++ b) = bytesOf ψ a ++ bytesOf ψ b := by
  simp [bytesOf]
@[simp] theorem bytesOf_map_i8 (ψ) (l : List Byte) : bytesOf ψ (l.map .i8) = l := by
  induction l with
  | nil => rfl
  | cons b l ih => simp [ih, Item.bytes]

def Item.len : Item → Nat
  | .i8 _ => 1
  | .i16 _ => 2
  | .i32 _ => 4
  | .i64 _ => 8
  | .rel _ _ => 4
  | .bind _ => 0
  | .fail _ => 0

def lenOf (its : List Item) : Nat := (its.map Item.len).sum

theorem bytes_length (ψ) (i : Item) : (i.bytes ψ).length = i.len := by
  cases i <;> rfl

theorem bytesOf_length (ψ its) : (bytesOf ψ its).length = lenOf its := by
  induction its with
  | nil => rfl
  | cons i is ih => simp [ih, lenOf, bytes_length]

@[simp] theorem lenOf_nil : lenOf [] = 0 := rfl
@[simp] theorem lenOf_cons (i is) : lenOf (i :: is) = i.len + lenOf is := by simp [lenOf]
@[simp] theorem lenOf_append (a b) : lenOf (a ++ b) = lenOf a + lenOf b := by simp [lenOf]

/-- No item of the list panics by itself. -/
def NoFail (its : List Item) : Prop := ∀ e, Item.fail e ∉ its

@[simp] theorem noFail_nil : NoFail [] := by simp [NoFail]
@[simp] theorem noFail_append (a b) : NoFail (a ++ b) ↔ NoFail a ∧ NoFail b := by
  simp [NoFail, forall_and]
@[simp] theorem noFail_cons (i is) : NoFail (i :: is) ↔ (∀ e, i ≠ .fail e) ∧ NoFail is := by
  simp only [NoFail, List.mem_cons, not_or, forall_and]
  constructor <;> rintro ⟨h, h'⟩ <;> refine ⟨fun e he => h e he.symm, h'⟩

end Monoasm
