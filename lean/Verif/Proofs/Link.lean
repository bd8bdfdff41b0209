import Verif.Spec.Link
import Verif.Spec.Mentions
import Verif.Proofs.Appended
import Verif.Proofs.Shape
import Verif.Proofs.Decode6
/-
  Effect of running a list of items; label slots.
-/

set_option linter.unusedSimpArgs false

namespace Monoasm
open Spec JitMemory

theorem bytes_eq_bytesAt (mem a n) : bytes mem a n = bytesAt mem a n := rfl

/-! ### Items and label slots -/

/-- Every reference records the distance from its slot to the end of the items. -/
def SlotsOk (its : List Item) : Prop :=
  ∀ pre l off post, its = pre ++ .rel l off :: post → off.toNat = 4 + lenOf post

/-- Entries recorded for `l` by the items on page `p`, starting at position `c`. -/
def relsOf (p : Page) (l : DestLabel) : List Item → Nat → List TargetType
  | [], _ => []
  | i :: is, c => (match i with
      | .rel l' off => if l' = l then [TargetType.rel p off c] else []
      | _ => []) ++ relsOf p l is (c + i.len)

theorem relsOf_append (p l a b c) : relsOf p l (a ++ b) c = relsOf p l a c ++ relsOf p l b (c + lenOf a) := by
  induction a generalizing c with
  | nil => simp [relsOf]
  | cons i is ih => simp [relsOf, ih, Nat.add_assoc]

theorem mem_relsOf {p l its c t} (h : t ∈ relsOf p l its c) :
    ∃ pre off post, its = pre ++ .rel l off :: post ∧ t = .rel p off (c + lenOf pre) := by
  induction its generalizing c with
  | nil => simp [relsOf] at h
  | cons i is ih =>
    simp only [relsOf, List.mem_append] at h
    rcases h with h | h
    · cases i <;> simp at h
      rename_i l' off
      by_cases e : l' = l
      · simp [e] at h; subst e
        exact ⟨[], off, is, rfl, by simpa using h⟩
      · simp [e] at h
    · obtain ⟨pre, off, post, rfl, rfl⟩ := ih h
      exact ⟨i :: pre, off, post, rfl, by simp [Nat.add_assoc]⟩

theorem relsOf_mem {p l off} (pre post c) :
    TargetType.rel p off (c + lenOf pre) ∈ relsOf p l (pre ++ .rel l off :: post) c := by
  rw [relsOf_append]
  simp [relsOf]

/-- The state after the items. -/
structure Ran (s : JitMemory) (its : List Item) (s' : JitMemory) : Prop where
  noFail : NoFail its
  page : s'.page = s.page
  pages : s'.pages = fun q => if q = s.page then
    { s.pages q with counter := (s.pages q).counter + lenOf its } else s.pages q
  mem : s'.mem = putBytes s.mem (here s) (bytesOf (fun _ => 0) its)
  len : s'.labels.length = s.labels.length
  targets : ∀ l, targets s' l = targets s l ++ relsOf s.page l its (s.pages s.page).counter
  known : ∀ l off, Item.rel l off ∈ its → l < s.labels.length

theorem Ran.here {s its s'} (h : Ran s its s') : here s' = here s + lenOf its := by
  simp [Spec.here, h.page, h.pages, Nat.add_assoc]

theorem Ran.contents {s its s'} (h : Ran s its s') (p) : (s'.pages p).contents = (s.pages p).contents := by
  rw [h.pages]; simp only; split <;> rfl

theorem targets_modify (s : JitMemory) (l f l') (hl : l < s.labels.length) :
    targets { s with labels := s.labels.modify l f } l'
      = if l' = l then (f s.labels[l]).target else targets s l' := by
  simp only [targets, List.getElem?_modify]
  by_cases h : l' = l
  · subst h; simp [hl]
  · have : ¬ l = l' := fun e => h e.symm
    simp [h, this]

theorem Item.run_ok {i : Item} {s s'} (h : i.run s = .ok () s') : Ran s [i] s' := by
  cases i with
  | i8 v =>
    simp only [Item.run, JitMemory.emitb, cur_bind, emitb_run] at h
    obtain ⟨_, rfl⟩ := emitRes_ok h
    exact ⟨by simp, rfl, rfl, rfl, rfl, by simp [relsOf, emitted, Spec.targets], by simp⟩
  | i16 v =>
    simp only [Item.run, JitMemory.emitw, cur_bind, emitw_run] at h
    obtain ⟨_, rfl⟩ := emitRes_ok h
    exact ⟨by simp, rfl, rfl, by simp [emitted, Item.bytes, Spec.here], rfl, by simp [relsOf, emitted, Spec.targets], by simp⟩
  | i32 v =>
    simp only [Item.run, JitMemory.emitl, cur_bind, emitl_run] at h
    obtain ⟨_, rfl⟩ := emitRes_ok h
    exact ⟨by simp, rfl, rfl, by simp [emitted, Item.bytes, Spec.here], rfl, by simp [relsOf, emitted, Spec.targets], by simp⟩
  | i64 v =>
    simp only [Item.run, JitMemory.emitq, cur_bind] at h
    obtain ⟨_, rfl⟩ := emitq_ok h
    exact ⟨by simp, rfl, rfl, by simp [emitted, Item.bytes, Spec.here], rfl, by simp [relsOf, emitted, Spec.targets], by simp⟩
  | rel l off =>
    simp only [Item.run] at h
    obtain ⟨_, s1, h1, h2⟩ := bind_ok h
    simp only [JitMemory.save_reloc, cur_bind] at h1
    have e : MemPage.counterOf s.page s = .ok (s.pages s.page).counter s := rfl
    rw [ok_bind e] at h1
    simp only [modifyLabel] at h1
    split at h1
    case isFalse => cases h1
    rename_i hl
    cases h1
    simp only [JitMemory.emitl, cur_bind, emitl_run] at h2
    obtain ⟨_, rfl⟩ := emitRes_ok h2
    refine ⟨by simp, rfl, rfl, by simp [emitted, Item.bytes, Spec.here], by simp [emitted], ?_, by simpa using hl⟩
    intro l'
    have := targets_modify s l (fun i => { i with target := i.target ++ [.rel s.page off (s.pages s.page).counter] }) l' hl
    refine Eq.trans this ?_
    by_cases e : l' = l
    · subst e; simp [relsOf, Spec.targets, hl]
    · have : ¬ l = l' := fun x => e x.symm
      simp [relsOf, e, this]
  | bind l =>
    simp only [Item.run, JitMemory.bind_label, cur_bind] at h
    have e : MemPage.counterOf s.page s = .ok (s.pages s.page).counter s := rfl
    rw [ok_bind e] at h
    simp only [modifyLabel] at h
    split at h
    case isFalse => cases h
    rename_i hl
    cases h
    refine ⟨by simp, rfl, ?_, by simp [Item.bytes, Spec.here], by simp, ?_, by simp⟩
    · funext q; simp only [lenOf_cons, Item.len, lenOf_nil, Nat.add_zero]; split <;> rfl
    intro l'
    rw [targets_modify s l _ l' hl]
    by_cases e : l' = l
    · subst e; simp [relsOf, Spec.targets, hl]
    · simp [relsOf, e]
  | fail e => cases h

theorem ran_nil (s) : Ran s [] s :=
  ⟨by simp, rfl, by funext q; simp, by simp, rfl, by simp [relsOf], by simp⟩

theorem Ran.trans {s a s1 b s2} (h1 : Ran s a s1) (h2 : Ran s1 b s2) : Ran s (a ++ b) s2 where
  noFail := by simp [h1.noFail, h2.noFail]
  page := h2.page.trans h1.page
  pages := by
    rw [h2.pages, h1.pages, h1.page]
    funext q
    by_cases e : q = s.page <;> simp [e, Nat.add_assoc]
  mem := by
    rw [h2.mem, h1.mem, bytesOf_append, putBytes_append, bytesOf_length, h1.here]
  len := h2.len.trans h1.len
  targets l := by
    rw [h2.targets, h1.targets, h1.page, h1.pages, relsOf_append]; simp
  known l off h := by
    rcases List.mem_append.1 h with h | h
    · exact h1.known l off h
    · rw [← h1.len]; exact h2.known l off h

theorem runItems_ok {its s s'} (h : runItems its s = .ok () s') : Ran s its s' := by
  induction its generalizing s with
  | nil => cases h; exact ran_nil _
  | cons i is ih =>
    rw [runItems_cons] at h
    obtain ⟨_, s1, h1, h2⟩ := bind_ok h
    exact (Item.run_ok h1).trans (ih h2)

/-! ### Linking -/

theorem ran_added {s its s'} (h : Ran s its s') (l) :
    added s s' l = relsOf s.page l its (s.pages s.page).counter := by
  simp [added, h.targets]

theorem le32_eq (v : BitVec 32) : littleEndian 4 v.toNat = le32 v := littleEndian_32 v

/-- `ψ` gives the contents of the slots. -/
def SlotVals (s : JitMemory) (la : DestLabel → Nat) (ψ : DestLabel → BitVec 32) (its : List Item) : Prop :=
  ∀ pre l off post, its = pre ++ .rel l off :: post →
    ψ l = BitVec.ofInt 32 ((la l : Int) - (here s + lenOf pre + off.toNat : Nat))

/-- Bytes of the items once linked. -/
theorem linked_vals {s its s' la mem ψ} (hr : Ran s its s') (hl : Linked s s' la mem)
    (hs : SlotVals s la ψ its) : bytes mem (here s) (lenOf its) = bytesOf ψ its := by
  -- every suffix
  suffices H : ∀ pre post, its = pre ++ post →
      bytes mem (here s + lenOf pre) (lenOf post) = bytesOf ψ post by
    simpa using H [] its rfl
  intro pre post
  induction post generalizing pre with
  | nil => intro _; simp [bytes]
  | cons i is ih =>
    intro e
    have e' : its = (pre ++ [i]) ++ is := by rw [e]; simp
    have ih := ih _ e'
    simp only [lenOf_append, lenOf_cons, lenOf_nil, Nat.add_zero] at ih
    rw [lenOf_cons, bytesOf_cons, bytes_eq_bytesAt, bytesAt_add, Nat.add_assoc]
    rw [bytes_eq_bytesAt] at ih
    rw [ih]
    congr 1
    have hslot : ∀ l p off pos, TargetType.rel p off pos ∈ added s s' l →
        ∃ pre' post', its = pre' ++ .rel l off :: post' ∧ p = s.page
          ∧ pos = (s.pages s.page).counter + lenOf pre' := by
      intro l p off pos h
      rw [ran_added hr] at h
      obtain ⟨pre', off', post', h1, h2⟩ := mem_relsOf h
      cases h2
      exact ⟨pre', post', h1, rfl, rfl⟩
    -- an item that is not a reference
    have plain : (∀ l off, i ≠ .rel l off) → bytesAt mem (here s + lenOf pre) i.len = i.bytes (fun _ => 0) := by
      intro hne
      rw [← bytes_length (fun _ => 0) i, bytesAt_eq_iff]
      intro k hk
      have hk' := hk
      rw [bytes_length] at hk'
      rw [hl.code _ (by omega)]
      · rw [hr.mem, e]
        simp only [bytesOf_append, bytesOf_cons]
        have hlen : lenOf pre + k < (bytesOf (fun _ => 0) pre ++ (i.bytes (fun _ => 0) ++ bytesOf (fun _ => 0) is)).length := by
          simp only [List.length_append, bytesOf_length, bytes_length]; omega
        rw [Nat.add_assoc, putBytes_in _ hlen, List.getElem_append_right (by simp [bytesOf_length])]
        simp only [bytesOf_length, Nat.add_sub_cancel_left]
        rw [List.getElem_append_left hk]
      · rw [hr.here, e]; simp; omega
      · intro l p off pos h
        obtain ⟨pre', post', h1, rfl, rfl⟩ := hslot l p off pos h
        have h3 : pre ++ i :: is = pre' ++ .rel l off :: post' := e.symm.trans h1
        simp only [Spec.here]
        rcases List.append_eq_append_iff.1 h3 with ⟨c, h4, h5⟩ | ⟨c, h4, h5⟩
        · cases c with
          | nil => simp at h5; exact absurd h5.1 (hne l off)
          | cons x c =>
            simp at h5
            left; rw [h4, ← h5.1]; simp; omega
        · cases c with
          | nil => simp at h5; exact absurd h5.1.symm (hne l off)
          | cons x c =>
            simp at h5
            right; rw [h4, ← h5.1]; simp [Item.len]; omega
    cases i with
    | rel l off =>
      have hm : TargetType.rel s.page off ((s.pages s.page).counter + lenOf pre) ∈ added s s' l := by
        rw [ran_added hr, e]; exact relsOf_mem pre is _
      have := hl.slot _ _ _ _ hm
      rw [le32_eq] at this
      simp only [Item.bytes, Item.len]
      rw [← bytes_eq_bytesAt]
      simp only [Spec.here, Nat.add_assoc] at this ⊢
      rw [this, hs _ _ _ _ e]
      simp only [Spec.here, Nat.add_assoc]
    | i8 v => exact plain (by simp)
    | i16 v => exact plain (by simp)
    | i32 v => exact plain (by simp)
    | i64 v => exact plain (by simp)
    | bind l => exact plain (by simp)
    | fail e => exact plain (by simp)

theorem slotsOk_vals {s its s' la} (hr : Ran s its s') (hs : SlotsOk its) :
    SlotVals s la (fun l => BitVec.ofInt 32 ((la l : Int) - here s')) its := by
  intro pre l off post e
  have h4 := hs _ _ _ _ e
  have hh := hr.here
  rw [e] at hh
  simp only [lenOf_append, lenOf_cons, Item.len] at hh
  have : here s' = here s + lenOf pre + off.toNat := by omega
  simp only [this]

/-- Bytes of the items once linked. -/
theorem linked_bytes {s its s' la mem} (hr : Ran s its s') (hl : Linked s s' la mem)
    (hs : SlotsOk its) :
    bytes mem (here s) (lenOf its) = bytesOf (fun l => BitVec.ofInt 32 ((la l : Int) - here s')) its :=
  linked_vals hr hl (slotsOk_vals hr hs)

/-- Bytes outside the slots do not depend on the contents of the slots. -/
theorem bytesOf_outside {ψ ψ' : DestLabel → BitVec 32} {its : List Item} {k} (hk : k < lenOf its)
    (h : ∀ pre l off post, its = pre ++ .rel l off :: post → k < lenOf pre ∨ lenOf pre + 4 ≤ k) :
    (bytesOf ψ its)[k]'(by rw [bytesOf_length]; exact hk) = (bytesOf ψ' its)[k]'(by rw [bytesOf_length]; exact hk) := by
  induction its generalizing k with
  | nil => simp at hk
  | cons i is ih =>
    simp only [lenOf_cons] at hk
    by_cases hlt : k < i.len
    · simp only [bytesOf_cons]
      rw [List.getElem_append_left (by rw [bytes_length]; exact hlt),
        List.getElem_append_left (by rw [bytes_length]; exact hlt)]
      cases i with
      | rel l off => have := h [] l off is rfl; simp [Item.len] at this hlt; omega
      | _ => rfl
    · have e := ih (k := k - i.len) (by omega) (fun pre l off post e => by
        have := h (i :: pre) l off post (by rw [e]; rfl)
        simp at this; omega)
      simp only [bytesOf_cons]
      rw [List.getElem_append_right (by rw [bytes_length]; omega),
        List.getElem_append_right (by rw [bytes_length]; omega)]
      simpa [bytes_length] using e

/-- Filling the slots yields linked memory. -/
theorem linked_put {s its s' la ψ} (hr : Ran s its s') (hs : SlotVals s la ψ its) :
    Linked s s' la (putBytes s.mem (here s) (bytesOf ψ its)) where
  slot := fun l p off pos h => by
    rw [ran_added hr] at h
    obtain ⟨pre, off', post, e, h2⟩ := mem_relsOf h
    cases h2
    have hv := hs _ _ _ _ e
    have e2 : (s.pages s.page).contents + ((s.pages s.page).counter + lenOf pre) = here s + lenOf pre := by
      simp only [here]; omega
    rw [e2, ← hv, le32_eq, e]
    simp only [bytesOf_append, bytesOf_cons, Item.bytes]
    rw [bytes_eq_bytesAt, putBytes_append, putBytes_append, bytesOf_length]
    have hlen : (le32 (ψ l)).length = 4 := rfl
    have h4 : bytesAt (putBytes (putBytes (putBytes s.mem (here s) (bytesOf ψ pre)) (here s + lenOf pre) (le32 (ψ l)))
        (here s + lenOf pre + (le32 (ψ l)).length) (bytesOf ψ post)) (here s + lenOf pre) (le32 (ψ l)).length = le32 (ψ l) := by
      rw [bytesAt_eq_iff]
      intro k hk
      rw [putBytes_out _ (by omega), putBytes_in _ hk]
    exact h4
  code := fun a h1 h2 h => by
    rw [hr.mem]
    rw [hr.here] at h2
    obtain ⟨k, rfl⟩ : ∃ k, a = here s + k := ⟨a - here s, by omega⟩
    have hk : k < lenOf its := by omega
    rw [putBytes_in _ (by rw [bytesOf_length]; exact hk), putBytes_in _ (by rw [bytesOf_length]; exact hk)]
    apply bytesOf_outside hk
    intro pre l off post e
    have hm : TargetType.rel s.page off ((s.pages s.page).counter + lenOf pre) ∈ added s s' l := by
      rw [ran_added hr, e]; exact relsOf_mem pre post _
    have := h _ _ _ _ hm
    simp only [here] at this
    omega

/-! ### All instructions except `roundpd` record the right offset -/

theorem slotsOk_append {a b : List Item} (ha : ∀ l off, Item.rel l off ∉ a) (hb : SlotsOk b) : SlotsOk (a ++ b) := by
  intro pre l off post h
  rcases List.append_eq_append_iff.1 h with ⟨c, h1, h2⟩ | ⟨c, h1, h2⟩
  · exact hb c l off post h2
  · cases c with
    | nil => exact hb [] l off post (by simpa using h2.symm)
    | cons x c =>
      simp at h2
      exact absurd (by rw [h1, h2.1]; simp) (ha l off)

theorem slotsOk_none {a : List Item} (ha : ∀ l off, Item.rel l off ∉ a) : SlotsOk a := by
  intro pre l off post h
  exact absurd (by rw [h]; simp) (ha l off)

theorem imm_off (imm : Imm) : (4 + imm.offset).toNat = 4 + lenOf (immItems imm) := by
  cases imm <;> rfl

theorem slotsOk_disp (imm : Imm) (d : Disp) : SlotsOk (dispItems imm d ++ immItems imm) := by
  have hn : ∀ l off, Item.rel l off ∉ immItems imm := by cases imm <;> simp [immItems]
  cases d with
  | label l =>
    intro pre l' off post h
    cases pre with
    | nil =>
      simp [dispItems] at h
      obtain ⟨⟨rfl, rfl⟩, rfl⟩ := h
      exact imm_off imm
    | cons x pre =>
      simp [dispItems] at h
      exact absurd (by rw [h.2]; simp) (hn l' off)
  | none => exact slotsOk_none (by simpa [dispItems] using hn)
  | d8 v => exact slotsOk_none (by simpa [dispItems] using hn)
  | d32 v => exact slotsOk_none (by simpa [dispItems] using hn)

theorem rex_noRel (k r b x m) : ∀ l off, Item.rel l off ∉ rexItems k r b x m := by
  intro l off
  simp only [rexItems]
  split <;> (repeat' split) <;> simp

theorem i8_noRel (bs : List Byte) : ∀ l off, Item.rel l off ∉ bs.map .i8 := by
  intro l off; simp

theorem sib_noRel (sc i b) : ∀ l off, Item.rel l off ∉ [sibItem sc i b] := by
  intro l off; simp only [sibItem]; split <;> simp

theorem noRel_append {a b : List Item} (ha : ∀ l off, Item.rel l off ∉ a) (hb : ∀ l off, Item.rel l off ∉ b) :
    ∀ l off, Item.rel l off ∉ a ++ b := by
  intro l off; simp [ha, hb]

theorem slotsOk_enc (op k mm rm imm) : SlotsOk (encItems op k mm rm imm) := by
  simp only [encItems]
  split
  · exact slotsOk_none (by simp)
  split
  · split
    · exact slotsOk_none (by simp)
    · rw [List.append_assoc]
      refine slotsOk_append (noRel_append (noRel_append (rex_noRel _ _ _ _ _) (i8_noRel _)) (by simp)) (slotsOk_disp _ _)
  split
  · refine slotsOk_none (noRel_append (noRel_append (noRel_append (rex_noRel _ _ _ _ _) (i8_noRel _)) (by simp)) ?_)
    cases imm <;> simp [immItems]
  · split
    · split <;> rw [List.append_assoc] <;>
      · refine slotsOk_append (noRel_append (noRel_append (rex_noRel _ _ _ _ _) (i8_noRel _)) ?_) (slotsOk_disp _ _)
        intro l off; simp only [sibItem]; split <;> simp
    · rw [List.append_assoc]
      refine slotsOk_append (noRel_append (noRel_append (noRel_append (rex_noRel _ _ _ _ _) (i8_noRel _)) (by simp)) ?_) (slotsOk_disp _ _)
      simp only [scaleItems]
      split
      · simp
      · exact sib_noRel _ _ _

theorem imm_noRel (imm) : ∀ l off, Item.rel l off ∉ immItems imm := by cases imm <;> simp [immItems]

theorem o_noRel (k op r) : ∀ l off, Item.rel l off ∉ It.o k op r := by
  simp only [It.o]
  split
  · simp
  · exact noRel_append (rex_noRel _ _ _ _ _) (by simp)

theorem slotsOk_items {i its} (h : items i = .ok its) (hi : ∀ a b c, i ≠ .Roundpd a b c) : SlotsOk its := by
  cases items_shape h with
  | label l => exact slotsOk_none (by simp)
  | bytes bs imm => exact slotsOk_none (noRel_append (i8_noRel _) (imm_noRel _))
  | o pre k op reg imm => exact slotsOk_none (noRel_append (i8_noRel _) (noRel_append (o_noRel _ _ _) (imm_noRel _)))
  | enc pre op k mm rm imm => exact slotsOk_append (i8_noRel _) (slotsOk_enc _ _ _ _ _)
  | round a b c => exact absurd rfl (hi a b c)
  | d op l =>
    refine slotsOk_append (i8_noRel _) ?_
    intro pre l' off post h
    cases pre with
    | nil => simp at h; obtain ⟨⟨rfl, rfl⟩, rfl⟩ := h; rfl
    | cons x pre => simp at h
  | imm pre hp => exact slotsOk_none (noRel_append (i8_noRel _) (by simp))
  | cl => exact slotsOk_none (by simp)

theorem disp_noRel (imm d) (h : ∀ l, d ≠ Disp.label l) : ∀ l off, Item.rel l off ∉ dispItems imm d := by
  intro l off
  cases d <;> simp [dispItems]
  exact absurd rfl (h _)

theorem enc_noRel (op k mm) (rm : Rm) (imm) (h : ∀ l, rm.mode.disp ≠ .label l) :
    ∀ l off, Item.rel l off ∉ encItems op k mm rm imm := by
  obtain ⟨base, mode⟩ := rm
  simp only [encItems]
  split
  · simp
  split
  · split
    · simp
    · rename_i rm' e
      refine noRel_append (noRel_append (noRel_append (noRel_append (rex_noRel _ _ _ _ _) (i8_noRel _)) (by simp)) ?_) (imm_noRel _)
      refine disp_noRel _ _ ?_
      simp only [Rm.rip_ind_from] at e
      split at e <;> cases e <;> simp_all [Mode.disp]
  split
  · exact noRel_append (noRel_append (noRel_append (rex_noRel _ _ _ _ _) (i8_noRel _)) (by simp)) (imm_noRel _)
  · simp only [Mode.disp] at h
    split
    · split <;>
      · refine noRel_append (noRel_append (noRel_append (noRel_append (rex_noRel _ _ _ _ _) (i8_noRel _)) ?_) (disp_noRel _ _ h)) (imm_noRel _)
        intro l off; simp only [sibItem]; split <;> simp
    · refine noRel_append (noRel_append (noRel_append (noRel_append (noRel_append (rex_noRel _ _ _ _ _) (i8_noRel _)) (by simp)) ?_) ?_) (imm_noRel _)
      · simp only [scaleItems]
        split
        · simp
        · exact sib_noRel _ _ _
      · refine disp_noRel _ _ ?_
        intro l; split
        · simp
        · exact h l

theorem from_disp_noLabel (d : BitVec 32) (l) : Disp.from_disp d ≠ .label l := by
  simp only [Disp.from_disp]
  split
  · simp
  · split <;> simp

/-- `roundpd` without a label. -/
theorem slotsOk_round {a b c its} (h : items (.Roundpd a b c) = .ok its)
    (hb : b.labels = []) : SlotsOk its := by
  simp only [items, Except.ok.injEq] at h
  subst h
  refine slotsOk_none (noRel_append ?_ (by simp))
  intro l off
  simp only [List.mem_cons, reduceCtorEq, false_or]
  refine enc_noRel _ _ _ _ _ (fun l => ?_) l off
  cases b with
  | xmm x => simp [XmOperand.toRm, Rm.reg, Mode.disp]
  | ind a =>
    obtain ⟨base, scale, disp⟩ := a
    simp only [XmOperand.labels, IndAddr.labels] at hb
    cases disp with
    | label l => simp [MDisp.labels] at hb
    | imm d => simpa [XmOperand.toRm, IndAddr.toRm, Rm.ind, Mode.disp, MDisp.toDisp] using from_disp_noLabel _ _
    | expr n e => cases n <;>
        simpa [XmOperand.toRm, IndAddr.toRm, Rm.ind, Mode.disp, MDisp.toDisp] using from_disp_noLabel _ _

theorem runs_items {i s s'} (h : Runs i s s') : ∃ its, items i = .ok its ∧ Ran s its s' := by
  obtain ⟨m, h1, h2⟩ := h
  rw [compile_eq] at h1
  cases hi : items i with
  | error e => rw [hi] at h1; cases h1
  | ok its =>
    rw [hi] at h1; cases h1
    exact ⟨its, rfl, runItems_ok h2⟩

theorem near_fits {la a} (h : Near la a) :
    Fits (dist la a) (fun l => BitVec.ofInt 32 ((la l : Int) - a)) := by
  intro l
  have := h l
  simp only [dist]
  apply BitVec.eq_of_toInt_eq
  rw [BitVec.toInt_signExtend_of_le (by omega), BitVec.toInt_ofInt, BitVec.toInt_ofInt,
    Int.bmod_eq_of_le (by omega) (by omega), Int.bmod_eq_of_le (by omega) (by omega)]

/-- Linked code decodes to the instruction actually assembled. -/
theorem decode_linked {i s its s' la mem I} (hi : items i = .ok its) (hr : Ran s its s') (hs : SlotsOk its)
    (hl : Linked s s' la mem) (hn : Near la (here s')) (hM : actual (dist la (here s')) i = some I) (rest) :
    X86.decode (bytes mem (here s) (here s' - here s) ++ rest) = some (I, rest) := by
  have hh := hr.here
  have e : here s' - here s = lenOf its := by omega
  rw [e, linked_bytes hr hl hs]
  exact (decode_items (near_fits hn) i hM hi (hr.noFail _)).dec rest

/-- All statements but `roundpd` and `cvttsd2siq` are encoded faithfully. -/
theorem faithful (i : Inst V DestLabel) (h1 : ∀ a b c, i ≠ .Roundpd a b c)
    (h2 : ∀ a b, i ≠ .Cvttsd2siq a b) : Faithful i := by
  intro s s' la mem I hr hl hn hM rest
  obtain ⟨its, hi, hran⟩ := runs_items hr
  refine decode_linked hi hran (slotsOk_items hi h1) hl hn ?_ rest
  cases i <;> first | exact hM | (exact absurd rfl (h2 _ _))

end Monoasm
