import Verif.Proofs.Past
import Verif.Proofs.Correct
import Verif.Proofs.Mentions
/-
  References made by statements, up to the `finalize` that resolves them.
-/

namespace Monoasm
open JitMemory Spec

/-- The fields recorded by a statement. -/
theorem added_ran {s its s'} (h : Ran s its s') {l t} (ht : t ∈ added s s' l) :
    ∃ pre off post, its = pre ++ .rel l off :: post ∧ t = .rel s.page off (cursor s s.page + lenOf pre) := by
  rw [ran_added h] at ht
  exact mem_relsOf ht

theorem added_mem {s s' l t} (h : t ∈ added s s' l) : t ∈ targets s' l := List.mem_of_mem_drop h

/-- A field of a statement other than `roundpd`: the recorded offset leads to the end of the code. -/
theorem added_end {i s s'} (h : Runs i s s') (hi : ∀ a b m l, i = .Roundpd a b m → l ∉ b.labels)
    {l p off pos} (ht : TargetType.rel p off pos ∈ added s s' l) :
    p = s.page ∧ cursor s p ≤ pos ∧ pos + 4 ≤ cursor s' p ∧ pos + off.toNat = cursor s' p := by
  obtain ⟨its, e, hr⟩ := runs_items h
  have hs : SlotsOk its := by
    by_cases hR : ∃ a b m, i = .Roundpd a b m
    · obtain ⟨a, b, m, rfl⟩ := hR
      exact slotsOk_round e (List.eq_nil_iff_forall_not_mem.2 fun l => hi a b m l rfl)
    · exact slotsOk_items e fun a b m h => hR ⟨a, b, m, h⟩
  obtain ⟨pre, off', post, rfl, e2⟩ := added_ran hr ht
  cases e2
  have h1 := hs pre l off post rfl
  have h2 : cursor s' s.page = cursor s s.page + lenOf (pre ++ .rel l off :: post) := by
    simp [cursor, hr.pages]
  have h3 : lenOf (pre ++ Item.rel l off :: post) = lenOf pre + (4 + lenOf post) := by simp [Item.len]
  refine ⟨rfl, Nat.le_add_right _ _, by omega, by omega⟩

/-- The state after a statement that runs. -/
theorem inst_state {i s s'} (h : Runs i s s') : ((Op.inst i).run s).state = s' := by
  obtain ⟨m, e, hm⟩ := h
  simp only [Op.run, e, hm, Res.state_ok]

theorem live_of_cursor {base s} (hi : Inv base s) {t : TargetType} (h : t.pos + t.size ≤ cursor s t.page) : Live t :=
  Nat.le_trans h (hi.counter _)

/-- A field stays recorded while its label stays unbound. -/
theorem pending_stays {base s} {h : List Op} (hi : HInv base s) (hr : NoRaw h) (hf : KeepsLabels s h)
    {l t} (ht : t ∈ targets s l) (hu : UnboundAtFinalize l s h) :
    t ∈ targets (runCaught h s) l := by
  exact along_induct (P := fun s => t ∈ targets s l)
    (fun s op h1 h2 h3 h4 h5 => (pending_op h1 h2 h3 h5 fun e s' hs => unbound_pos (h4 e s' hs)).1) hi hr hf hu ht

/-- Every label operand is recorded. -/
theorem mention_added {i s s'} (h : Runs i s s') {l} (hm : i.mentions l) (hne : i ≠ .Label l) :
    ∃ p off pos, TargetType.rel p off pos ∈ added s s' l := by
  obtain ⟨its, e, hr⟩ := runs_items h
  obtain ⟨it, hit, hk⟩ := items_hits e hm
  rcases hk with ⟨off, rfl⟩ | rfl | ⟨er, rfl⟩
  · obtain ⟨pre, post, rfl⟩ := List.append_of_mem hit
    exact ⟨s.page, off, _, by rw [ran_added hr]; exact relsOf_mem pre post _⟩
  · exact absurd (items_bind e hit) hne
  · exact absurd hit (hr.noFail er)

/-- `roundpd`: the recorded offset leads to the byte before the end. -/
theorem added_round {a b m s s'} (h : Runs (.Roundpd a b m) s s')
    {l p off pos} (ht : TargetType.rel p off pos ∈ added s s' l) :
    p = s.page ∧ cursor s p ≤ pos ∧ pos + off.toNat + 1 = cursor s' p := by
  obtain ⟨its, hi, hr⟩ := runs_items h
  obtain ⟨pre, off', post, e, e2⟩ := added_ran hr ht
  cases e2
  have h2 : cursor s' s.page = cursor s s.page + lenOf its := by
    simp [cursor, hr.pages]
  simp only [items, Except.ok.injEq] at hi
  have hsl : SlotsOk (.i8 0x66 :: It.mr [0x0f, 0x3a, 0x09] a.toReg b.toRm) :=
    slotsOk_append (a := [.i8 0x66]) (by simp) (slotsOk_enc _ _ _ _ _)
  revert hsl hi
  generalize Item.i8 0x66 :: It.mr [0x0f, 0x3a, 0x09] a.toReg b.toRm = X
  intro hi hsl
  obtain ⟨post', rfl, e3⟩ : ∃ post', post = post' ++ [.i8 (m.setWidth 8)] ∧ X = pre ++ .rel l off :: post' := by
    rcases List.eq_nil_or_concat post with rfl | ⟨q, x, rfl⟩
    · have := (List.append_inj' (hi.trans e) rfl).2
      simp at this
    · rw [List.concat_eq_append] at e ⊢
      have h2 : X ++ [Item.i8 (m.setWidth 8)] = (pre ++ .rel l off :: q) ++ [x] := by rw [hi, e]; simp
      have h3 := List.append_inj' h2 rfl
      simp at h3
      exact ⟨q, by rw [h3.2], h3.1⟩
  have h4 := hsl _ _ _ _ e3
  rw [e] at h2
  simp only [lenOf_append, lenOf_cons, lenOf_nil, Item.len] at h2
  exact ⟨rfl, Nat.le_add_right _ _, by omega⟩

theorem ofInt_toInt {x : Int} (h1 : -2147483648 ≤ x) (h2 : x ≤ 2147483647) : (BitVec.ofInt 32 x).toInt = x := by
  rw [BitVec.toInt_ofInt, Int.bmod_eq_of_le] <;> omega

/-- A resolved relative field. -/
theorem rel_field {base s s'} (f : Finalized base s s') (hb : 0 < base) {l p off pos a}
    (ht : TargetType.rel p off pos ∈ targets s l) (ha : HasAddress s' l a) :
    ∃ v : BitVec 32, Spec.bytes s'.mem (addrOf base p pos) 4 = littleEndian 4 v.toNat
      ∧ v.toInt + (addrOf base p pos + off.toNat : Nat) = a := by
  obtain ⟨q, c, hl, rfl⟩ := (hasAddress_iff f.inv hb).1 ha
  obtain ⟨_, h2, h3⟩ := f.fields l q c _ hl ht
  simp only [FitsRel, contentsOf, f.inv.contents, TargetType.page, TargetType.pos, TargetType.size, slotBytes] at h2 h3
  refine ⟨_, h3, ?_⟩
  rw [ofInt_toInt h2.1 h2.2]
  simp only [addrOf]
  omega

theorem addr_lt {base s} (hi : Inv base s) (ha : Alloc base) {l p c} (h : s.locOf l = some (p, c)) :
    addrOf base p c < 2 ^ 64 := by
  rw [JitMemory.locOf, Option.bind_eq_some_iff] at h
  obtain ⟨i, h1, h2⟩ := h
  have := hi.loc l i h1 p c h2
  have h3 := ha.user
  have key : ∀ p : Nat, p < 3 → c ≤ PAGE_SIZE → base + PAGE_SIZE * p + c < 2 ^ 64 := by
    intro p hp hc
    rw [PAGE_SIZE_eq] at *
    omega
  exact key p this.1 this.2

theorem resolved_field {base s s'} (f : Finalized base s s') (hA : Alloc base) {l a} {t : TargetType}
    (ht : t ∈ targets s l) (ha : HasAddress s' l a) : LeadsTo base s'.mem a t := by
  cases t with
  | rel p off pos => exact rel_field f hA.pos ht ha
  | abs p pos =>
    obtain ⟨q, c, hl, rfl⟩ := (hasAddress_iff f.inv hA.pos).1 ha
    obtain ⟨_, h2, h3⟩ := f.fields l q c _ hl ht
    simp only [f.inv.contents, TargetType.page, TargetType.pos, TargetType.size, slotBytes] at h3
    have hlt := addr_lt f.inv hA hl
    simp only [addrOf, LeadsTo] at hlt ⊢
    rw [h3, BitVec.toNat_ofNat, Nat.mod_eq_of_lt hlt]

theorem mem_bytes_congr {m m' : Nat → Byte} {a n} (h : ∀ i, i < n → m (a + i) = m' (a + i)) :
    Spec.bytes m a n = Spec.bytes m' a n := by
  simp only [Spec.bytes]
  exact List.map_congr_left fun i hi => h i (List.mem_range.1 hi)

theorem resolved_congr {base m m' a} {t : TargetType}
    (h : ∀ pos, Covers t t.page pos → m' (addrOf base t.page pos) = m (addrOf base t.page pos))
    (hr : LeadsTo base m a t) : LeadsTo base m' a t := by
  have key : Spec.bytes m' (addrOf base t.page t.pos) t.size = Spec.bytes m (addrOf base t.page t.pos) t.size := by
    refine mem_bytes_congr fun i hi => ?_
    have := h (t.pos + i) ⟨rfl, Nat.le_add_right _ _, Nat.add_lt_add_left hi _⟩
    simpa only [addrOf, Nat.add_assoc] using this
  cases t with
  | rel p off pos =>
    obtain ⟨v, h1, h2⟩ := hr
    exact ⟨v, key.trans h1, h2⟩
  | abs p pos => exact key.trans hr

/-- Bytes settled now are the same later. -/
theorem kept_mem {base s} {h : List Op} (hi : HInv base s) (hr : NoRaw h) (hf : KeepsLabels s h)
    {p pos} (hs : Settled s p pos) (hk : Spares p pos s h) :
    (runCaught h s).mem (addrOf base p pos) = s.mem (addrOf base p pos) := by
  have := (settled_caught hi hr hf hs hk).2
  have h1 := (hinv_caught hi hr).inv.contents p
  simp only [byteAt, h1, hi.inv.contents] at this
  exact this

end Monoasm
