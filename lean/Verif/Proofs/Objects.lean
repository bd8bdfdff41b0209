import Verif.Proofs.Refer
import Verif.Spec.Objects
/-
  Constants and data objects along histories.
-/

namespace Monoasm
open JitMemory Spec

theorem mem_objects {s : JitMemory} {p : Page} {d l} : (p, d, l) ∈ objects s ↔
    ((p = 0 ∧ (d, l) ∈ (s.pages 0).constants) ∨ (p = 1 ∧ (d, l) ∈ (s.pages 1).constants)
    ∨ (p = DATA_PAGE ∧ (d, l) ∈ (s.pages 0).data) ∨ (p = DATA_PAGE ∧ (d, l) ∈ (s.pages 1).data)) := by
  simp only [objects, List.mem_append, List.mem_map, Prod.mk.injEq, Prod.exists]
  constructor
  · rintro (⟨a, b, h, rfl, rfl, rfl⟩ | ⟨a, b, h, rfl, rfl, rfl⟩ | ⟨a, b, h, rfl, rfl, rfl⟩ | ⟨a, b, h, rfl, rfl, rfl⟩)
    · exact .inl ⟨rfl, h⟩
    · exact .inr (.inl ⟨rfl, h⟩)
    · exact .inr (.inr (.inl ⟨rfl, h⟩))
    · exact .inr (.inr (.inr ⟨rfl, h⟩))
  · rintro (⟨rfl, h⟩ | ⟨rfl, h⟩ | ⟨rfl, h⟩ | ⟨rfl, h⟩)
    · exact .inl ⟨_, _, h, rfl, rfl, rfl⟩
    · exact .inr (.inl ⟨_, _, h, rfl, rfl, rfl⟩)
    · exact .inr (.inr (.inl ⟨_, _, h, rfl, rfl, rfl⟩))
    · exact .inr (.inr (.inr ⟨_, _, h, rfl, rfl, rfl⟩))

theorem page01 (p : Nat) : p = 0 ∨ p = 1 ∨ 2 ≤ p := by omega

theorem waits_iff {base s} (hi : HInv base s) {p d l} : Waits s p d l ↔ (p, d, l) ∈ objects s := by
  rw [mem_objects, Waits]
  constructor
  · rintro (h | ⟨h, q, hq⟩)
    · rcases page01 p with rfl | rfl | h2
      · exact .inl ⟨rfl, h⟩
      · exact .inr (.inl ⟨rfl, h⟩)
      · rw [(hi.lists p h2).1] at h; cases h
    · rcases page01 q with rfl | rfl | h2
      · exact .inr (.inr (.inl ⟨h, hq⟩))
      · exact .inr (.inr (.inr ⟨h, hq⟩))
      · rw [(hi.lists q h2).2] at hq; cases hq
  · rintro (⟨rfl, h⟩ | ⟨rfl, h⟩ | ⟨rfl, h⟩ | ⟨rfl, h⟩)
    · exact .inl h
    · exact .inl h
    · exact .inr ⟨rfl, _, h⟩
    · exact .inr ⟨rfl, _, h⟩

/-- Objects wait until the next `finalize`. -/
theorem waits_op {s : JitMemory} {op : Op} (hf : op ≠ .finalize) {p d l} (h : Waits s p d l) :
    Waits (op.run s).state p d l := by
  by_cases hn : ∃ c, op = .new c
  · obtain ⟨c, rfl⟩ := hn
    rw [new_state]
    rcases h with h | ⟨h, q, hq⟩
    · refine .inl ?_
      simp only [newState]; split
      · exact List.mem_append_left _ h
      · exact h
    · refine .inr ⟨h, q, ?_⟩
      simp only [newState]; split
      · exact List.mem_append_left _ hq
      · exact hq
  · have hk := fun p => keeps_lists (s := s) (op := op) (fun c e => hn ⟨c, e⟩) hf p
    rcases h with h | ⟨h, q, hq⟩
    · exact .inl (by rw [(hk p).1]; exact h)
    · exact .inr ⟨h, q, by rw [(hk q).2]; exact hq⟩

theorem waits_caught {s : JitMemory} {h : List Op} (hf : NoFinalize h) {p d l} (hw : Waits s p d l) :
    Waits (runCaught h s) p d l := by
  induction h generalizing s with
  | nil => exact hw
  | cons op ops ih =>
    have h1 : op ≠ .finalize := by rintro rfl; exact hf (List.mem_cons_self ..)
    exact ih (fun hm => hf (List.mem_cons_of_mem _ hm)) (waits_op h1 hw)

theorem waits_const {c : NewCall} {s s1 l d} (h : c.run s = .ok l s1) (hc : c.const = some d) :
    Waits s1 s.page d l := by
  rw [newCall_run] at h
  cases h
  refine .inl ?_
  simp [newState, hc]

theorem waits_datum {c : NewCall} {s s1 l d} (h : c.run s = .ok l s1) (hc : c.datum = some d) :
    Waits s1 DATA_PAGE d l := by
  rw [newCall_run] at h
  cases h
  refine .inr ⟨rfl, s.page, ?_⟩
  simp [newState, hc]

theorem new_reach {base mem h1 h2} {c : NewCall} {l s1} (hl : c.run (reach base mem h1) = .ok l s1) :
    reach base mem (h1 ++ .new c :: h2) = runCaught h2 s1 := by
  rw [newCall_run] at hl
  cases hl
  rw [reach, runCaught_append, runCaught_cons]
  show runCaught h2 ((Op.new c).run (reach base mem h1)).state = _
  rw [new_state]

/-- An object created by a call waits until the next `finalize`, on the selected page (constants). -/
theorem waits_reach_const {base mem h1 h2} {c : NewCall} {l s1 d} (hl : c.run (reach base mem h1) = .ok l s1)
    (hc : c.const = some d) (hn : NoFinalize h2) :
    Waits (reach base mem (h1 ++ .new c :: h2)) (reach base mem h1).page d l := by
  rw [new_reach hl]; exact waits_caught hn (waits_const hl hc)

theorem waits_reach_datum {base mem h1 h2} {c : NewCall} {l s1 d} (hl : c.run (reach base mem h1) = .ok l s1)
    (hc : c.datum = some d) (hn : NoFinalize h2) :
    Waits (reach base mem (h1 ++ .new c :: h2)) DATA_PAGE d l := by
  rw [new_reach hl]; exact waits_caught hn (waits_datum hl hc)

theorem align_dvd (d : DataType) : d.align ∣ PAGE_SIZE := by
  rw [PAGE_SIZE_eq]; cases d <;> simp only [DataType.align] <;> omega

theorem dvd_addr {base : Nat} (ha : Alloc base) {n p pos : Nat} (hn : n ∣ PAGE_SIZE) (hp : n ∣ pos) : n ∣ addrOf base p pos :=
  Nat.dvd_add (Nat.dvd_add (Nat.dvd_trans hn ha.aligned) (Nat.dvd_trans hn (Nat.dvd_mul_right _ _))) hp

/-- What `finalize` does with a waiting object that is not an address. -/
theorem holds_of_waits {base s s'} (ha : Alloc base) (hi : HInv base s) (hfin : finalize s = .ok () s') {p d l}
    (hw : Waits s p d l) (hx : ∀ x, d ≠ .absAddress x) :
    Holds base s' l p d.align d.value := by
  have f := finalize_hinv hi hfin
  obtain ⟨pos, h1, _, h3, h4, h5, _⟩ := f.placed p d l ((waits_iff hi).1 hw)
  refine ⟨pos, hasAddress_of_loc f.inv ha.pos h1, dvd_addr ha (align_dvd d) h4, ?_, ?_⟩
  · rw [value_length]; exact Nat.le_trans h3 (f.inv.counter p)
  · rw [value_length]
    have := (h5 hx).1
    rwa [f.inv.contents] at this

/-- And what remains of it. -/
theorem settled_of_waits {base s s'} (hb : 0 < base) (hi : HInv base s) (hfin : finalize s = .ok () s') {p d l}
    (hw : Waits s p d l) (hx : ∀ x, d ≠ .absAddress x) {a} (hl : HasAddress s' l a) :
    ∃ pos, a = addrOf base p pos ∧ ∀ i, i < d.size → Settled s' p (pos + i) := by
  have f := finalize_hinv hi hfin
  obtain ⟨pos, h1, _, h3, h4, h5, _⟩ := f.placed p d l ((waits_iff hi).1 hw)
  refine ⟨pos, ?_, (h5 hx).2⟩
  obtain ⟨q, c, e1, e2⟩ := (hasAddress_iff f.inv hb).1 hl
  rw [h1] at e1
  cases e1
  exact e2

theorem spares_range {base s} (hi : Inv base s) {h : List Op} {p pos a n} (h1 : a ≤ addrOf base p pos)
    (h2 : addrOf base p pos < a + n) (hk : SparesRange a n s h) : Spares p pos s h := by
  induction h generalizing s with
  | nil => trivial
  | cons op ops ih =>
    refine ⟨?_, ih (inv_op hi op) hk.2⟩
    show ¬ Overwrites s op ((s.pages p).contents + pos)
    rw [hi.contents]
    exact hk.1 _ h1 h2

theorem addr_apart {base p p' pos pos' n n' : Nat} (h : pos + n ≤ PAGE_SIZE) (h' : pos' + n' ≤ PAGE_SIZE)
    (ha : p ≠ p' ∨ pos + n ≤ pos' ∨ pos' + n' ≤ pos) :
    addrOf base p pos + n ≤ addrOf base p' pos' ∨ addrOf base p' pos' + n' ≤ addrOf base p pos := by
  simp only [addrOf]
  rw [PAGE_SIZE_eq] at *
  omega

/-- Cursors never decrease. -/
theorem cursor_caught {base s} {h : List Op} (hi : HInv base s) (hr : NoRaw h) (hf : KeepsLabels s h) (q : Page) :
    cursor s q ≤ cursor (runCaught h s) q := by
  refine along_induct (base := base) (P := fun x => cursor s q ≤ cursor x q) (Q := fun _ _ => True) ?_ hi hr hf along_true
    (Nat.le_refl _)
  intro x op hx h2 h3 _ h5
  refine Nat.le_trans h5 ?_
  rcases op_cases op h2 with ha | hp | rfl
  · exact (Grows.op ha x hx.inv).2.cursor q
  · obtain ⟨m, e, _⟩ := pokes_state hp x
    rw [e]; exact Nat.le_refl _
  · rcases finalize_cases hx (h3 rfl) with ⟨y, e, f⟩ | ⟨er, y, e, u⟩
    · simp only [Op.run, e, Res.state_ok]
      exact f.cursor q
    · simp only [Op.run, e, Res.state_panic]
      exact u.cursor q

end Monoasm
