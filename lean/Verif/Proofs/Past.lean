import Verif.Proofs.Placing
import Verif.Spec.Past
import Verif.Proofs.LabelAddr
/-
  Invariants of histories: fields do not overlap, objects have distinct labels, settled bytes stay.
-/

set_option linter.unusedSimpArgs false

namespace Monoasm
open JitMemory Spec

/-- Invariant of histories without direct calls of `save_reloc` and without panics in `finalize`. -/
structure HInv (base : Nat) (s : JitMemory) : Prop where
  inv : Inv base s
  slots : Slots s
  nodup : ((objects s).map fun x => x.2.2).Nodup
  fresh : ∀ x ∈ objects s, (x.2.2 : Nat) < s.labels.length
  lists : ∀ p, 2 ≤ p → (s.pages p).constants = [] ∧ (s.pages p).data = []

theorem hinv_new (base mem) : HInv base (JitMemory.new base mem) := by
  refine ⟨inv_new base mem, slots_none fun l => by simp [targets, JitMemory.new], ?_, ?_, ?_⟩
  · simp [objects, JitMemory.new, MemPage.new]
  · simp [objects, JitMemory.new, MemPage.new]
  · intro p _; exact ⟨rfl, rfl⟩

theorem new_len (c : NewCall) {α} (f g : DataType → α) :
    ((c.const.map f).toList ++ (c.datum.map g).toList).length ≤ 1 := by
  cases c <;> exact Nat.le_of_ble_eq_true rfl

theorem objects_newState {base c s} (hi : Inv base s) :
    ∃ xs : List (Page × DataType × DestLabel), (∀ x ∈ xs, x.2.2 = s.labels.length) ∧ xs.length ≤ 1 ∧
    (objects (newState c s)).Perm (objects s ++ xs) := by
  refine ⟨(c.const.map fun d => (s.page, d, s.labels.length)).toList ++
    (c.datum.map fun d => (DATA_PAGE, d, s.labels.length)).toList, ?_, ?_, ?_⟩
  · intro x hx
    simp only [List.mem_append, Option.mem_toList, Option.map_eq_some_iff] at hx
    rcases hx with ⟨_, _, rfl⟩ | ⟨_, _, rfl⟩ <;> rfl
  · exact new_len c _ _
  · have h01 : s.page = 0 ∨ s.page = 1 := by
      have := hi.page
      have key : ∀ p : Nat, p < 2 → p = 0 ∨ p = 1 := by omega
      exact key _ this
    rw [List.perm_iff_count]
    intro a
    rcases h01 with h | h <;>
    · cases hc : c.const <;> cases hd : c.datum <;>
        simp only [objects, newState, h, hc, hd, List.count_append, List.map_append, Option.map_none, Option.map_some,
          Option.toList_none, Option.toList_some, List.map_nil, List.map_cons, List.append_nil, List.count_nil, if_true,
          show ¬ ((0 : Page) = 1) by decide, show ¬ ((1 : Page) = 0) by decide, if_false] <;> omega

/-- A state that differs in memory only. -/
theorem hinv_mem {base s} (h : HInv base s) (m) : HInv base { s with mem := m } :=
  ⟨h.inv.putMem m, ⟨h.slots.inside, h.slots.apart, h.slots.low, h.slots.aligned, h.slots.dead⟩, h.nodup, h.fresh, h.lists⟩

/-- Calls that change existing bytes. -/
def Op.pokes : Op → Prop
  | .cur (.poke _ _) => True
  | .page _ (.poke _ _) => True
  | .apply_jmp_patch _ _ => True
  | .apply_jmp_patch_address _ _ => True
  | _ => False

theorem write_state (p pos v) (s : JitMemory) : ∃ m, (MemPage.write p pos v s).state = { s with mem := m } ∧
    ∀ a, a ≠ (s.pages p).contents + pos → m a = s.mem a := by
  simp only [MemPage.write]
  split
  · exact ⟨s.mem, rfl, fun _ _ => rfl⟩
  · exact ⟨_, rfl, fun a ha => by simp [upd, ha]⟩

theorem patch_address_state (x d) (s : JitMemory) : ∃ m, (apply_jmp_patch_address x d s).state = { s with mem := m } ∧
    ∀ a, ¬ (x + 1 ≤ a ∧ a < x + 5) → m a = s.mem a := by
  have h0 := get_label_address_state d s
  simp only [apply_jmp_patch_address, M.bind_def]
  cases e : get_label_address d s with
  | panic er s1 => rw [e] at h0; simp only [Res.state_panic] at h0 ⊢; rw [h0]; exact ⟨s.mem, rfl, fun _ _ => rfl⟩
  | ok y s1 =>
    rw [e] at h0; simp only [Res.state_ok] at h0
    subst h0
    refine ⟨_, rfl, fun a ha => ?_⟩
    simp only [upd]
    rw [if_neg (by omega), if_neg (by omega), if_neg (by omega), if_neg (by omega)]

theorem pokes_state {op : Op} (h : op.pokes) (s : JitMemory) : ∃ m, (op.run s).state = { s with mem := m } ∧
    ∀ a, ¬ Overwrites s op a → m a = s.mem a := by
  cases op with
  | cur c =>
    cases c <;> simp only [Op.pokes] at h
    exact write_state _ _ _ s
  | page p c =>
    cases c <;> simp only [Op.pokes] at h
    simp only [Op.run, M.bind_def, checkPage]
    by_cases hp : p < 3
    · simp only [hp, if_true]
      exact write_state _ _ _ s
    · simp only [hp, if_false]
      exact ⟨s.mem, rfl, fun _ _ => rfl⟩
  | apply_jmp_patch l d =>
    have h0 := get_label_address_state l s
    simp only [Op.run, apply_jmp_patch, M.bind_def]
    cases e : get_label_address l s with
    | panic er s1 => rw [e] at h0; simp only [Res.state_panic] at h0 ⊢; rw [h0]; exact ⟨s.mem, rfl, fun _ _ => rfl⟩
    | ok y s1 =>
      rw [e] at h0; simp only [Res.state_ok] at h0
      subst h0
      obtain ⟨m, hm, hf⟩ := patch_address_state y d s1
      refine ⟨m, hm, fun a ha => hf a fun hc => ha ⟨y, e, hc⟩⟩
  | apply_jmp_patch_address x d => exact patch_address_state x d s
  | _ => exact h.elim

theorem op_cases (op : Op) (hr : ∀ l off, op ≠ .save_reloc l off) : op.adds ∨ op.pokes ∨ op = .finalize := by
  cases op with
  | cur c => cases c <;> simp [Op.adds, Op.pokes]
  | page p c => cases c <;> simp [Op.adds, Op.pokes]
  | save_reloc l off => exact absurd rfl (hr l off)
  | _ => simp [Op.adds, Op.pokes]

theorem Finalized.objects {base s s'} (f : Finalized base s s') : objects s' = [] := by
  simp only [Monoasm.objects, f.pages 0 (by decide), f.pages 1 (by decide)]
  simp

theorem finalize_hinv {base s s'} (h : HInv base s) (hf : finalize s = .ok () s') : Finalized base s s' :=
  finalize_ok h.inv h.slots h.nodup hf

theorem keeps_lists {op : Op} {s} (hn : ∀ c, op ≠ .new c) (hf : op ≠ .finalize) (p) :
    ((op.run s).state.pages p).constants = (s.pages p).constants ∧
    ((op.run s).state.pages p).data = (s.pages p).data :=
  have hk := keeps_op (B := fun _ => True) hn hf (fun _ _ => trivial) s
  ⟨hk.constants p, hk.data p⟩

theorem new_state (c : NewCall) (s) : ((Op.new c).run s).state = newState c s := by
  simp only [Op.run, ok_bind (newCall_run c s)]
  rfl

/-- A `finalize` that panics, for whatever reason. -/
theorem hinv_panic {base s s'} {e : Panic} (h : HInv base s) (hf : finalize s = .panic e s') : HInv base s' := by
  have hi : Inv base s' := by
    have := inv_op h.inv .finalize
    simpa only [Op.run, hf, Res.state_panic] using this
  rcases finalize_panics h.inv hf with u | ⟨sc, f, hp⟩
  · have t := u.takes h.nodup
    refine ⟨hi, u.slots h.slots, t.distinct h.nodup, fun x hx => ?_, fun p hp => ?_⟩
    · rw [t.len]; exact h.fresh x (t.sub.subset hx)
    · rw [(t.high p hp).1, (t.high p hp).2]; exact h.lists p hp
  · obtain ⟨h1, h2⟩ := fill_panics hp
    have ho : objects s' = [] := by
      rw [← f.objects]
      simp only [objects, h2]
    have ht : ∀ l, targets s' l = [] := by intro l; simp [targets, h1]
    refine ⟨hi, slots_none ht, by rw [ho]; simp, by rw [ho]; simp, fun p hp => ?_⟩
    · rw [(h2 p).1, (h2 p).2, (f.high h.nodup p hp).1, (f.high h.nodup p hp).2]; exact h.lists p hp

theorem hinv_op {base s} {op : Op} (h : HInv base s) (hr : ∀ l off, op ≠ .save_reloc l off) :
    HInv base (op.run s).state := by
  rcases op_cases op hr with ha | hp | rfl
  · obtain ⟨hi, g⟩ := Grows.op ha s h.inv
    by_cases hn : ∃ c, op = .new c
    · obtain ⟨c, rfl⟩ := hn
      rw [new_state] at hi g ⊢
      obtain ⟨xs, hx, hlen, hperm⟩ := objects_newState (c := c) h.inv
      have hll : (newState c s).labels.length = s.labels.length + 1 := by simp [newState]
      refine ⟨hi, g.slots h.slots, ?_, ?_, ?_⟩
      · rw [(hperm.map _).nodup_iff, List.map_append, List.nodup_append]
        refine ⟨h.nodup, ?_, ?_⟩
        · match xs, hlen with
          | [], _ => simp
          | [x], _ => simp
        · intro a ha b hb e
          obtain ⟨x, hx1, rfl⟩ := List.mem_map.1 ha
          obtain ⟨y, hy1, rfl⟩ := List.mem_map.1 hb
          have h1 := h.fresh x hx1
          have h2 := hx y hy1
          rw [e, h2] at h1
          exact Nat.lt_irrefl _ h1
      · intro x hx'
        rw [hll]
        rcases List.mem_append.1 (hperm.mem_iff.1 hx') with h1 | h1
        · exact Nat.lt_succ_of_lt (h.fresh x h1)
        · rw [hx x h1]; exact Nat.lt_succ_self _
      · intro p hp
        have hne : p ≠ s.page := by
          have := h.inv.page
          have key : ∀ a b : Nat, a < 2 → 2 ≤ b → b ≠ a := by omega
          exact key _ _ this hp
        simp only [newState, if_neg hne]
        exact h.lists p hp
    · have hn' : ∀ c, op ≠ .new c := fun c e => hn ⟨c, e⟩
      have hnf : op ≠ .finalize := by rintro rfl; exact ha
      have hl := fun p => keeps_lists (s := s) hn' hnf p
      have ho : objects (op.run s).state = objects s := by
        simp only [objects, (hl 0).1, (hl 1).1, (hl 0).2, (hl 1).2]
      have hlen := op_len (s := s) fun e => absurd e hnf
      refine ⟨hi, g.slots h.slots, by rw [ho]; exact h.nodup, ?_, ?_⟩
      · rw [ho]; intro x hx; rw [hlen]; exact Nat.lt_of_lt_of_le (h.fresh x hx) (Nat.le_add_right _ _)
      · intro p hp; rw [(hl p).1, (hl p).2]; exact h.lists p hp
  · obtain ⟨m, e, _⟩ := pokes_state hp s
    rw [e]; exact hinv_mem h m
  · simp only [Op.run]
    cases e : finalize s with
    | panic er s' => exact hinv_panic h e
    | ok u s' =>
      have f := finalize_hinv h e
      rw [Res.state_ok]
      refine ⟨f.inv, f.slots, by rw [f.objects]; simp, by rw [f.objects]; simp, ?_⟩
      intro p hp
      have h01 : ¬ (p = 0 ∨ p = 1) := by
        have key : ∀ p : Nat, 2 ≤ p → ¬ (p = 0 ∨ p = 1) := by omega
        exact key p hp
      have hl := f.lists p
      rw [if_neg h01] at hl
      have h1 : (s'.pages p).constants = (s.pages p).constants := congrArg Prod.fst hl
      have h2 : (s'.pages p).data = (s.pages p).data := congrArg Prod.snd hl
      rw [h1, h2]
      exact h.lists p hp

/-- What is known after a `finalize` that does not lose the labels. -/
theorem finalize_cases {base s} (h : HInv base s) (hl : (finalize s).state.labels.length = s.labels.length) :
    (∃ s', finalize s = .ok () s' ∧ Finalized base s s') ∨ (∃ e s', finalize s = .panic e s' ∧ Unplaced s s') := by
  cases e : finalize s with
  | ok u s' => exact .inl ⟨s', rfl, finalize_hinv h e⟩
  | panic er s' =>
    rw [e] at hl
    exact .inr ⟨er, s', rfl, finalize_unplaced h.inv e hl⟩

/-! ### Along histories -/

theorem along_append {P a b s} : Along P s (a ++ b) ↔ Along P s a ∧ Along P (runCaught a s) b := by
  induction a generalizing s with
  | nil => simp [Along, runCaught]
  | cons op ops ih => simp only [List.cons_append, Along, ih, runCaught_cons, and_assoc]

theorem noRaw_append {a b} : NoRaw (a ++ b) ↔ NoRaw a ∧ NoRaw b := by
  simp only [NoRaw, List.mem_append]
  exact ⟨fun h => ⟨fun op ho => h op (.inl ho), fun op ho => h op (.inr ho)⟩,
    fun h op ho => ho.elim (h.1 op) (h.2 op)⟩

theorem noRaw_cons {op ops} : NoRaw (op :: ops) ↔ (∀ l off, op ≠ .save_reloc l off) ∧ NoRaw ops := by
  simp only [NoRaw, List.mem_cons, forall_eq_or_imp]

theorem hinv_caught {base s} (hi : HInv base s) {h : List Op} (hr : NoRaw h) :
    HInv base (runCaught h s) := by
  induction h generalizing s with
  | nil => exact hi
  | cons op ops ih =>
    rw [noRaw_cons] at hr
    exact ih (hinv_op hi hr.1) hr.2

theorem hinv_reach {base mem h} (hr : NoRaw h) :
    HInv base (reach base mem h) := hinv_caught (hinv_new base mem) hr

/-- The pages never move. -/
theorem contents_eq {base s s'} (h : Inv base s) (h' : Inv base s') (p) :
    (s'.pages p).contents = (s.pages p).contents := by rw [h.contents, h'.contents]

/-- The induction used by all facts about what later calls keep. -/
theorem along_induct {base : Nat} {P : JitMemory → Prop} {Q : JitMemory → Op → Prop}
    (step : ∀ s op, HInv base s → (∀ l off, op ≠ .save_reloc l off) →
      (op = .finalize → (finalize s).state.labels.length = s.labels.length) → Q s op → P s → P (op.run s).state)
    {s} {h : List Op} (hi : HInv base s) (hr : NoRaw h) (hf : KeepsLabels s h) (hq : Along Q s h) (hp : P s) :
    P (runCaught h s) := by
  induction h generalizing s with
  | nil => exact hp
  | cons op ops ih =>
    rw [noRaw_cons] at hr
    exact ih (hinv_op hi hr.1) hr.2 hf.2 hq.2 (step s op hi hr.1 hf.1 hq.1 hp)

theorem along_true {s h} : Along (fun _ _ => True) s h := by
  induction h generalizing s with
  | nil => trivial
  | cons op ops ih => exact ⟨trivial, ih⟩

theorem Unplaced.settled {s s' : JitMemory} (u : Unplaced s s') {p pos} (hs : Settled s p pos) :
    Settled s' p pos ∧ byteAt s' p pos = byteAt s p pos := by
  refine ⟨⟨Nat.lt_of_lt_of_le hs.1 (u.cursor p), fun l t ht hl hc => ?_⟩, u.mem p pos hs.1⟩
  obtain ⟨ts, e, hts⟩ := u.targets l
  rw [e] at ht
  rcases List.mem_append.1 ht with ht | ht
  · exact hs.2 l t ht hl hc
  · have h1 := hts t ht
    obtain ⟨c1, c2, c3⟩ := hc
    rw [c1] at h1
    have := hs.1
    omega

/-- One call keeps settled bytes. -/
theorem settled_op {base s} {op : Op} (hi : HInv base s) (hr : ∀ l off, op ≠ .save_reloc l off)
    (hf : op = .finalize → (finalize s).state.labels.length = s.labels.length) {p pos} (hs : Settled s p pos)
    (hno : ¬ Overwrites s op ((s.pages p).contents + pos)) :
    Settled (op.run s).state p pos ∧ byteAt (op.run s).state p pos = byteAt s p pos := by
  rcases op_cases op hr with ha | hp | rfl
  · exact settled_grow hs (Grows.op ha s hi.inv).2
  · obtain ⟨m, e, hm⟩ := pokes_state hp s
    rw [e]
    exact ⟨⟨hs.1, hs.2⟩, hm _ hno⟩
  · rcases finalize_cases hi (hf rfl) with ⟨s', e, f⟩ | ⟨er, s', e, u⟩
    · simp only [Op.run, e, Res.state_ok]
      exact f.settled p pos hs
    · simp only [Op.run, e, Res.state_panic]
      exact u.settled hs

/-- Settled bytes keep their value. -/
theorem settled_caught {base s} {h : List Op} (hi : HInv base s) (hr : NoRaw h) (hf : KeepsLabels s h)
    {p pos} (hs : Settled s p pos) (hk : Spares p pos s h) :
    Settled (runCaught h s) p pos ∧ byteAt (runCaught h s) p pos = byteAt s p pos := by
  have := along_induct (P := fun s1 => Settled s1 p pos ∧ byteAt s1 p pos = byteAt s p pos)
    (fun s1 op h1 h2 h3 h4 h5 => by
      have := settled_op h1 h2 h3 h5.1 h4
      exact ⟨this.1, this.2.trans h5.2⟩) hi hr hf hk ⟨hs, rfl⟩
  exact this

/-- A field stays recorded, and its bytes stay, until its label is bound at a `finalize`. -/
theorem pending_op {base s} {op : Op} (hi : HInv base s) (hr : ∀ l off, op ≠ .save_reloc l off)
    (hf : op = .finalize → (finalize s).state.labels.length = s.labels.length) {l t} (ht : t ∈ targets s l)
    (hu : op = .finalize → ∀ s', finalize s = .ok () s' → s'.locOf l = none) :
    t ∈ targets (op.run s).state l ∧ ∀ pos, Live t → Covers t t.page pos →
      ¬ Overwrites s op ((s.pages t.page).contents + pos) → byteAt (op.run s).state t.page pos = byteAt s t.page pos := by
  rcases op_cases op hr with ha | hp | rfl
  · have g := (Grows.op ha s hi.inv).2
    refine ⟨?_, fun pos hl hc _ => g.mem _ _ ?_⟩
    · obtain ⟨ts, e, _⟩ := g.targets l
      rw [e]; exact List.mem_append_left _ ht
    · have := hi.slots.inside l t ht hl
      have := hc.2.2
      omega
  · obtain ⟨m, e, hm⟩ := pokes_state hp s
    rw [e]
    exact ⟨ht, fun pos hl hc hno => hm _ hno⟩
  · rcases (finalize_cases hi (hf rfl)).symm with ⟨er, s', e, u⟩ | ⟨s', e, f⟩
    · simp only [Op.run, e, Res.state_panic]
      refine ⟨?_, fun pos hl hc _ => u.mem _ _ ?_⟩
      · obtain ⟨ts, e, _⟩ := u.targets l
        rw [e]; exact List.mem_append_left _ ht
      · have := hi.slots.inside l t ht hl
        have := hc.2.2
        omega
    have hu := hu rfl s' e
    simp only [Op.run, e, Res.state_ok]
    refine ⟨?_, fun pos hl hc _ => f.frame _ _ ?_ ?_⟩
    · obtain ⟨ts, e, _⟩ := f.unbound l hu
      rw [e]; exact List.mem_append_left _ ht
    · have := hi.slots.inside l t ht hl
      have := hc.2.2
      omega
    · intro l2 t2 hl2 ht2 hc2
      have hne : l ≠ l2 := by rintro rfl; exact hl2 hu
      cases e2 : s'.locOf l2 with
      | none => exact hl2 e2
      | some pc =>
        have live2 := (f.fields l2 pc.1 pc.2 t2 e2 ht2).1
        obtain ⟨i, h1⟩ := List.mem_iff_getElem?.1 ht
        obtain ⟨i2, h2⟩ := List.mem_iff_getElem?.1 ht2
        have hap := hi.slots.apart l l2 i i2 t t2 h1 h2 (.inl hne) hl live2
        obtain ⟨c1, c2, c3⟩ := hc
        obtain ⟨d1, d2, d3⟩ := hc2
        rcases hap with h | h | h
        · exact h d1.symm
        · omega
        · omega

theorem zeroed_op {base s} {op : Op} (hi : HInv base s) (hr : ∀ l off, op ≠ .save_reloc l off)
    (hf : op = .finalize → (finalize s).state.labels.length = s.labels.length) (hz : Zeroed s)
    (hno : ∀ l t, t ∈ targets s l → Live t → ∀ pos, Covers t t.page pos →
      ¬ Overwrites s op ((s.pages t.page).contents + pos)) : Zeroed (op.run s).state := by
  rcases op_cases op hr with ha | hp | rfl
  · exact (Grows.op ha s hi.inv).2.zeroed hi.slots hz
  · obtain ⟨m, e, hm⟩ := pokes_state hp s
    rw [e]
    intro l t ht hl pos hc
    exact (hm _ (hno l t ht hl pos hc)).trans (hz l t ht hl pos hc)
  · rcases finalize_cases hi (hf rfl) with ⟨s', e, f⟩ | ⟨er, s', e, u⟩
    · simp only [Op.run, e, Res.state_ok]
      exact f.zeroed hz
    · simp only [Op.run, e, Res.state_panic]
      exact u.zeroed hi.slots hz

theorem zeroed_new (base mem) : Zeroed (JitMemory.new base mem) := by
  intro l t ht; simp [targets, JitMemory.new] at ht

/-! ### Addresses -/

theorem hasAddress_iff {base s} (hi : Inv base s) (hb : 0 < base) {l a} :
    HasAddress s l a ↔ ∃ p c, s.locOf l = some (p, c) ∧ a = addrOf base p c := by
  constructor
  · intro h
    by_cases hl : l < s.labels.length
    · cases e : s.locOf l with
      | none => rw [HasAddress, (noAddress_unbound hl e).1] at h; cases h.1
      | some pc =>
        refine ⟨pc.1, pc.2, rfl, ?_⟩
        have := (hasAddress_of_loc hi hb (l := l) (p := pc.1) (c := pc.2) e).1
        rw [HasAddress, this] at h
        cases h.1; rfl
    · rw [HasAddress, (noAddress_unknown (by have : ∀ a b : Nat, ¬ a < b → b ≤ a := by omega
                                             exact this _ _ hl)).1] at h; cases h.1
  · rintro ⟨p, c, h, rfl⟩
    exact hasAddress_of_loc hi hb h

/-- A label with an unbound entry. -/
theorem unbound_pos {s : JitMemory} {l : Nat} {s'} (h : get_label_pos l s = .panic .noPositionBinding s') :
    s.locOf l = none := by
  by_cases hl : l < s.labels.length
  · rw [get_label_pos_eq s l hl] at h
    cases e : s.locOf l with
    | none => rfl
    | some pc => rw [e] at h; cases h
  · rw [JitMemory.locOf, List.getElem?_eq_none (by omega)]; rfl

theorem targets_known {s : JitMemory} {l : Nat} {t} (h : t ∈ targets s l) : l < s.labels.length := by
  simp only [targets] at h
  rcases Option.eq_none_or_eq_some (s.labels[l]?) with e | ⟨i, e⟩
  · rw [e] at h; cases h
  · exact (List.getElem?_eq_some_iff.1 e).1

/-! ### Checking concrete histories by evaluation -/

def Res.isOk {α} : Res α → Bool
  | .ok _ _ => true
  | .panic _ _ => false

/-- The panic, if any. -/
def Res.error {α} : Res α → Option Panic
  | .ok _ _ => none
  | .panic e _ => some e

theorem Res.isOk_iff {r : Res Unit} : r.isOk = true ↔ ∃ s, r = .ok () s := by
  cases r <;> simp [Res.isOk]

/-- Decides `NoFinalizePanic`. -/
def noFinPanic (s : JitMemory) : List Op → Bool
  | [] => true
  | op :: ops => (match op with
      | .finalize => (finalize s).isOk
      | _ => true) && noFinPanic (op.run s).state ops

theorem noFinPanic_iff {s h} : noFinPanic s h = true ↔ NoFinalizePanic s h := by
  induction h generalizing s with
  | nil => simp [noFinPanic, NoFinalizePanic]
  | cons op ops ih =>
    simp only [noFinPanic, NoFinalizePanic, Bool.and_eq_true, ih]
    refine and_congr ?_ Iff.rfl
    cases op <;> simp [Res.isOk_iff]

instance (s h) : Decidable (NoFinalizePanic s h) := decidable_of_iff _ noFinPanic_iff

/-- Decides `KeepsLabels`. -/
def keepsLabelsB (s : JitMemory) : List Op → Bool
  | [] => true
  | op :: ops => (match op with
      | .finalize => (finalize s).state.labels.length == s.labels.length
      | _ => true) && keepsLabelsB (op.run s).state ops

theorem keepsLabelsB_iff {s h} : keepsLabelsB s h = true ↔ KeepsLabels s h := by
  induction h generalizing s with
  | nil => simp [keepsLabelsB, KeepsLabels]
  | cons op ops ih =>
    simp only [keepsLabelsB, KeepsLabels, Bool.and_eq_true, ih]
    refine and_congr ?_ Iff.rfl
    cases op <;> simp

instance (s h) : Decidable (KeepsLabels s h) := decidable_of_iff _ keepsLabelsB_iff

instance (h) : Decidable (NoRaw h) :=
  decidable_of_iff (h.all fun | .save_reloc _ _ => false | _ => true) (by
    simp only [NoRaw, List.all_eq_true]
    refine forall_congr' fun op => imp_congr_right fun _ => ?_
    cases op <;> simp)

end Monoasm
