import Verif.Proofs.Failed
/-
  C18: no overlap.

  `Waits s p d l`: object `d` with label `l` has been created and waits to be put on page `p` by the
  next `finalize` (constants on the page selected at creation, data on page 2). `DataType.size` is
  the number of bytes of an object. Histories as in C09.
-/

namespace Monoasm
open Spec

variable {base : Nat} {mem : Nat → Byte} {h h1 h2 : List Op} {p p' : Page} {d d' : DataType} {l l' : DestLabel}
  {s1 s' s2 : JitMemory} {a a' : Nat}

/-- An object created by a call waits until the next `finalize`. -/
theorem C18_created_const {c : NewCall} (hl : c.run (reach base mem h1) = .ok l s1) (hc : c.const = some d)
    (hn : NoFinalize h2) : Waits (reach base mem (h1 ++ .new c :: h2)) (reach base mem h1).page d l :=
  waits_reach_const hl hc hn
theorem C18_created_data {c : NewCall} (hl : c.run (reach base mem h1) = .ok l s1) (hc : c.datum = some d)
    (hn : NoFinalize h2) : Waits (reach base mem (h1 ++ .new c :: h2)) DATA_PAGE d l :=
  waits_reach_datum hl hc hn

/-- Each object is put between the old and the new cursor of its page: beyond all code emitted
    before, and below everything emitted later. -/
theorem C18_fresh (ha : Alloc base) (hr : NoRaw h)
    (hfin : JitMemory.finalize (reach base mem h) = .ok () s') (hw : Waits (reach base mem h) p d l) :
    ∃ pos, HasAddress s' l (addrOf base p pos) ∧ cursor (reach base mem h) p ≤ pos ∧ pos + d.size ≤ cursor s' p := by
  have hi := hinv_reach (base := base) (mem := mem) hr
  have f := finalize_hinv hi hfin
  obtain ⟨pos, e1, e2, e3, _⟩ := f.placed _ _ l ((waits_iff hi).1 hw)
  exact ⟨pos, hasAddress_of_loc f.inv ha.pos e1, e2, e3⟩

/-- The byte ranges of objects with different labels are disjoint. -/
theorem C18_disjoint (ha : Alloc base) (hr : NoRaw h)
    (hfin : JitMemory.finalize (reach base mem h) = .ok () s') (hw : Waits (reach base mem h) p d l)
    (hw' : Waits (reach base mem h) p' d' l') (hne : l ≠ l') (hl : HasAddress s' l a) (hl' : HasAddress s' l' a') :
    a + d.size ≤ a' ∨ a' + d'.size ≤ a := by
  have hi := hinv_reach (base := base) (mem := mem) hr
  have f := finalize_hinv hi hfin
  have o := (waits_iff hi).1 hw
  have o' := (waits_iff hi).1 hw'
  obtain ⟨pos, e1, e2, e3, _⟩ := f.placed _ _ l o
  obtain ⟨pos', e1', e2', e3', _⟩ := f.placed _ _ l' o'
  have r1 := (Res.ok.inj ((hasAddress_of_loc f.inv ha.pos e1).1.symm.trans hl.1)).1
  have r2 := (Res.ok.inj ((hasAddress_of_loc f.inv ha.pos e1').1.symm.trans hl'.1)).1
  rw [← r1, ← r2]
  exact addr_apart (Nat.le_trans e3 (f.inv.counter p)) (Nat.le_trans e3' (f.inv.counter p'))
    (f.apart p d l pos p' d' l' pos' o o' hne e1 e1')

/-- Objects placed by an earlier and by a later `finalize` (after further calls `h2`) do not overlap
    either. -/
theorem C18_across (ha : Alloc base) (hr : NoRaw (h ++ .finalize :: h2))
    (hfin : JitMemory.finalize (reach base mem h) = .ok () s')
    (hfin2 : JitMemory.finalize (reach base mem (h ++ .finalize :: h2)) = .ok () s2)
    (hw : Waits (reach base mem h) p d l) (hw' : Waits (reach base mem (h ++ .finalize :: h2)) p' d' l')
    (hl : HasAddress s' l a) (hl' : HasAddress s2 l' a') :
    a + d.size ≤ a' ∨ a' + d'.size ≤ a := by
  have hr1 := noRaw_append.1 hr
  have hi := hinv_reach (base := base) (mem := mem) hr1.1
  have hi2 := hinv_reach (base := base) (mem := mem) hr
  have f := finalize_hinv hi hfin
  have f2 := finalize_hinv hi2 hfin2
  obtain ⟨pos, e1, e2, e3⟩ := C18_fresh ha hr1.1 hfin hw
  obtain ⟨pos', e1', e2', e3'⟩ := C18_fresh ha hr hfin2 hw'
  have r1 := (Res.ok.inj (e1.1.symm.trans hl.1)).1
  have r2 := (Res.ok.inj (e1'.1.symm.trans hl'.1)).1
  rw [← r1, ← r2]
  have hs : ((Op.finalize).run (reach base mem h)).state = s' := by
    show (JitMemory.finalize (reach base mem h)).state = s'
    rw [hfin]; rfl
  have er : reach base mem (h ++ .finalize :: h2) = runCaught h2 s' := by
    rw [reach, runCaught_append, runCaught_cons]
    show runCaught h2 ((Op.finalize).run (reach base mem h)).state = _
    rw [hs]
  have hi' : HInv base s' := by
    rw [← hs]; exact hinv_op hi (by simp)
  have hc := cursor_up hi'.inv h2
  rw [← er] at hc
  refine addr_apart (Nat.le_trans e3 (f.inv.counter p)) (Nat.le_trans e3' (f2.inv.counter p')) ?_
  by_cases hp : p = p'
  · subst hp
    exact .inr (.inl (Nat.le_trans e3 (Nat.le_trans (hc p) e2')))
  · exact .inl hp

/-- Four objects on two pages, two of them placed by a second `finalize`. -/
example :
    let h : List Op := [.new (.const_i64 1), .new (.const_i32 2), .inst .Ret, .new (.data 5)]
    let h2 : List Op := [.inst .Ret, .new (.constant 20), .new (.data_i64 3)]
    let s' := (JitMemory.finalize (reach 0x10000000 (fun _ => 0xcc) h)).state
    let s2 := (JitMemory.finalize (reach 0x10000000 (fun _ => 0xcc) (h ++ .finalize :: h2))).state
    NoRaw (h ++ .finalize :: h2) ∧ KeepsLabels (JitMemory.new 0x10000000 (fun _ => 0xcc)) (h ++ .finalize :: h2)
    ∧ (JitMemory.finalize (reach 0x10000000 (fun _ => 0xcc) (h ++ .finalize :: h2))).isOk = true
    ∧ s'.locOf 0 = some (0, 16) ∧ s'.locOf 1 = some (0, 24) ∧ s'.locOf 2 = some (2, 0)
    ∧ s2.locOf 3 = some (0, 32) ∧ s2.locOf 4 = some (2, 16) := by
  exact ⟨by decide +kernel, by decide +kernel, by decide +kernel, by decide +kernel, by decide +kernel,
    by decide +kernel, by decide +kernel, by decide +kernel⟩

end Monoasm
