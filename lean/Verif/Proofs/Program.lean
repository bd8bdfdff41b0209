import Verif.Spec.Program
import Verif.Proofs.Objects
import Verif.Proofs.Listing
import Verif.Proofs.Accept
/-
  Statements from emission to the end of the history.
-/

namespace Monoasm
open JitMemory Spec

/-- A label with an address does not belong to an object still to be placed. -/
def Sound (l : DestLabel) (s : JitMemory) : Prop := s.locOf l ≠ none → ¬ Pending s l

theorem loc_lt {s : JitMemory} {l : Nat} (h : s.locOf l ≠ none) : l < s.labels.length := by
  simp only [JitMemory.locOf] at h
  rcases Nat.lt_or_ge l s.labels.length with hl | hl
  · exact hl
  · rw [List.getElem?_eq_none hl] at h; simp at h

theorem pending_objects {base s} (hi : HInv base s) {l} (h : Pending s l) : ∃ x ∈ objects s, x.2.2 = l := by
  obtain ⟨p, d, h | h⟩ := h
  · exact ⟨(p, d, l), (waits_iff hi).1 (.inl h), rfl⟩
  · exact ⟨(DATA_PAGE, d, l), (waits_iff hi).1 (.inr ⟨rfl, p, h⟩), rfl⟩

section
variable {base : Nat} {s : JitMemory} {op : Op} {l : DestLabel}

theorem sound_op (hi : HInv base s) (hr : ∀ l off, op ≠ .save_reloc l off)
    (hf : op = .finalize → (finalize s).state.labels.length = s.labels.length)
    (hb : op.binds l → (∀ a, ¬ HasAddress s l a) ∧ ¬ Pending s l) (h : Sound l s) : Sound l (op.run s).state := by
  intro hl hp
  by_cases hfin : op = .finalize
  · subst hfin
    obtain ⟨x, hx, hxl⟩ := pending_objects (hinv_op hi hr) hp
    rcases finalize_cases hi (hf rfl) with ⟨s', e, f⟩ | ⟨er, s', e, u⟩
    · simp only [Op.run, e, Res.state_ok] at hx
      rw [f.objects] at hx; cases hx
    · simp only [Op.run, e, Res.state_panic] at hx hp hl
      have k := u.takes hi.nodup
      by_cases h1 : s'.locOf l = s.locOf l
      · exact h (by rw [← h1]; exact hl) (u.keep.pending l hp)
      · exact k.loc l h1 x hx hxl
  · by_cases hlt : l < s.labels.length
    · by_cases hbl : op.binds l
      · exact op_pending hf hlt (hb hbl).2 hp
      · by_cases hnp : Pending s l
        · have hloc : s.locOf l = none := by
            rcases Option.eq_none_or_eq_some (s.locOf l) with e | ⟨x, e⟩
            · exact e
            · exact absurd hnp (h (by rw [e]; simp))
          apply hl
          by_cases hn : ∃ c, op = .new c
          · obtain ⟨c, rfl⟩ := hn
            rw [new_state, newState_loc c s (Nat.ne_of_lt hlt), hloc]
          · rw [(keeps_op (B := fun l' => l' ≠ l) (fun c e => hn ⟨c, e⟩) hfin
              (fun l' h e => hbl (e ▸ h)) s).loc _ (by simp), hloc]
        · exact op_pending hf hlt hnp hp
    · have hge : s.labels.length ≤ l := Nat.le_of_not_lt hlt
      have hnone : s.locOf l = none := by simp [JitMemory.locOf, List.getElem?_eq_none hge]
      apply hl
      by_cases hn : ∃ c, op = .new c
      · obtain ⟨c, rfl⟩ := hn
        rw [new_state]
        by_cases e : l = s.labels.length
        · subst e; rw [JitMemory.locOf, newState_fresh]; rfl
        · rw [newState_loc c s e, hnone]
      · have : (op.run s).state.labels.length = s.labels.length := by
          have := op_len (op := op) (s := s) hf
          cases op <;> simp_all [countNew]
        simp only [JitMemory.locOf]
        rw [List.getElem?_eq_none (by omega)]; rfl

/-- The field `t` leads to `l`, and nothing is pending about it. -/
structure Done (base : Nat) (l : DestLabel) (t : TargetType) (s : JitMemory) : Prop where
  settled : ∀ pos, Covers t t.page pos → Settled s t.page pos
  leads : ∃ a, HasAddress s l a ∧ LeadsTo base s.mem a t

theorem bound_op (hA : Alloc base) (hi : HInv base s)
    (hf : op = .finalize → (finalize s).state.labels.length = s.labels.length)
    (hb : op.binds l → (∀ a, ¬ HasAddress s l a) ∧ ¬ Pending s l) (h : Sound l s) {a} (ha : HasAddress s l a) :
    HasAddress (op.run s).state l a := by
  obtain ⟨q, c, hl, rfl⟩ := (hasAddress_iff hi.inv hA.pos).1 ha
  have hnb : ¬ op.binds l := fun h => (hb h).1 _ ha
  have hne : s.locOf l ≠ none := by rw [hl]; simp
  have := (op_loc hf (loc_lt hne) (h hne) hnb).1
  exact hasAddress_of_loc (inv_op hi.inv op) hA.pos (this.trans hl)

theorem done_op (hA : Alloc base) (hi : HInv base s) (hr : ∀ l off, op ≠ .save_reloc l off)
    (hf : op = .finalize → (finalize s).state.labels.length = s.labels.length)
    (hb : op.binds l → (∀ a, ¬ HasAddress s l a) ∧ ¬ Pending s l) (h : Sound l s) {t}
    (hno : ∀ pos, Covers t t.page pos → ¬ Overwrites s op ((s.pages t.page).contents + pos))
    (hd : Done base l t s) : Done base l t (op.run s).state := by
  have hset := fun pos hc => settled_op hi hr hf (hd.settled pos hc) (hno pos hc)
  obtain ⟨a, ha, hl⟩ := hd.leads
  refine ⟨fun pos hc => (hset pos hc).1, a, bound_op hA hi hf hb h ha, resolved_congr (fun pos hc => ?_) hl⟩
  have := (hset pos hc).2
  have hi' := inv_op hi.inv op
  simp only [byteAt, hi'.contents, hi.inv.contents] at this
  exact this

theorem pend_op (hA : Alloc base) (hi : HInv base s) (hr : ∀ l off, op ≠ .save_reloc l off)
    (hf : op = .finalize → (finalize s).state.labels.length = s.labels.length) {t} (ht : t ∈ targets s l) :
    t ∈ targets (op.run s).state l ∨ Done base l t (op.run s).state := by
  by_cases hu : op = .finalize → ∀ s', finalize s = .ok () s' → s'.locOf l = none
  · exact .inl (pending_op hi hr hf ht hu).1
  · rw [Classical.not_imp] at hu
    obtain ⟨rfl, hu⟩ := hu
    obtain ⟨s', hu⟩ := Classical.not_forall.1 hu
    obtain ⟨e, hu⟩ := Classical.not_imp.1 hu
    have f := finalize_hinv hi e
    simp only [Op.run, e, Res.state_ok]
    rcases Option.eq_none_or_eq_some (s'.locOf l) with e1 | ⟨⟨q, c⟩, e1⟩
    · exact absurd e1 hu
    · have ha := hasAddress_of_loc f.inv hA.pos e1
      exact .inr ⟨f.filled l t hu ht, _, ha, resolved_field f hA ht ha⟩
end

/-- What is known of a field along a history. -/
theorem track {base s} {h : List Op} {l : DestLabel} (hA : Alloc base) (hi : HInv base s) (hr : NoRaw h)
    (hf : KeepsLabels s h) (hb : BindsOnce l s h) (hs : Sound l s) {t}
    (hk : SparesField t s h) (ht : t ∈ targets s l ∨ Done base l t s) :
    Sound l (runCaught h s) ∧ (t ∈ targets (runCaught h s) l ∨ Done base l t (runCaught h s)) := by
  induction h generalizing s with
  | nil => exact ⟨hs, ht⟩
  | cons op ops ih =>
    rw [runCaught_cons]
    rw [noRaw_cons] at hr
    refine ih (hinv_op hi hr.1) hr.2 hf.2 hb.2 (sound_op hi hr.1 hf.1 hb.1 hs) (fun pos hc => (hk pos hc).2) ?_
    rcases ht with ht | ht
    · exact pend_op hA hi hr.1 hf.1 ht
    · exact .inr (done_op hA hi hr.1 hf.1 hb.1 hs (fun pos hc => (hk pos hc).1) ht)

theorem sound_caught {base s} {h : List Op} {l : DestLabel} (hi : HInv base s) (hr : NoRaw h)
    (hf : KeepsLabels s h) (hb : BindsOnce l s h) (hs : Sound l s) : Sound l (runCaught h s) := by
  induction h generalizing s with
  | nil => exact hs
  | cons op ops ih =>
    rw [runCaught_cons]
    rw [noRaw_cons] at hr
    exact ih (hinv_op hi hr.1) hr.2 hf.2 hb.2 (sound_op hi hr.1 hf.1 hb.1 hs)

theorem sound_new (base mem l) : Sound l (JitMemory.new base mem) := by
  intro h; simp [JitMemory.locOf, JitMemory.new] at h

theorem bound_caught {base s} {h : List Op} {l : DestLabel} (hA : Alloc base) (hi : HInv base s) (hr : NoRaw h)
    (hf : KeepsLabels s h) (hb : BindsOnce l s h) (hs : Sound l s) {a} (ha : HasAddress s l a) :
    HasAddress (runCaught h s) l a := by
  induction h generalizing s with
  | nil => exact ha
  | cons op ops ih =>
    rw [runCaught_cons]
    rw [noRaw_cons] at hr
    exact ih (hinv_op hi hr.1) hr.2 hf.2 hb.2 (sound_op hi hr.1 hf.1 hb.1 hs) (bound_op hA hi hf.1 hb.1 hs ha)

theorem labelAddr_eq {s l a} (h : HasAddress s l a) : labelAddr s l = a := by
  simp only [labelAddr, h.1]

theorem labelAddr_cases {base s} (hi : Inv base s) (l : DestLabel) : ∃ p c : Nat, p < 3 ∧ c ≤ PAGE_SIZE ∧
    (0 < base → labelAddr s l = base + PAGE_SIZE * p + c) := by
  rcases Option.eq_none_or_eq_some (s.locOf l) with e | ⟨⟨p, c⟩, e⟩
  · refine ⟨0, 0, by decide, by decide, fun _ => ?_⟩
    simp only [labelAddr]
    by_cases hl : l < s.labels.length
    · rw [(noAddress_unbound hl e).1]
      simp only [hi.contents]; rfl
    · rw [(noAddress_unknown (Nat.le_of_not_lt hl)).1]
      simp only [hi.contents]; rfl
  · have h := e
    rw [JitMemory.locOf, Option.bind_eq_some_iff] at h
    obtain ⟨i, h1, h2⟩ := h
    have := hi.loc l i h1 p c h2
    refine ⟨p, c, this.1, this.2, fun hb => ?_⟩
    rw [labelAddr_eq (hasAddress_of_loc hi hb e)]
    rfl

/-- All labels are near all positions. -/
theorem near_labelAddr {base s} (hi : Inv base s) (hb : 0 < base) {p c : Nat} (hp : p < 3) (hc : c ≤ PAGE_SIZE) :
    Near (labelAddr s) (base + PAGE_SIZE * p + c) := by
  intro l
  obtain ⟨q, d, hq, hd, e⟩ := labelAddr_cases hi l
  rw [e hb]
  rw [PAGE_SIZE_eq] at *
  omega

theorem runsAll_caught {is s s'} (h : RunsAll is s s') : runCaught (is.map .inst) s = s' := by
  induction is generalizing s with
  | nil => rw [runsAll_nil] at h; subst h; rfl
  | cons i is ih =>
    obtain ⟨s1, h1, h2⟩ := runsAll_cons.1 h
    rw [List.map_cons, runCaught_cons, inst_state h1]
    exact ih h2

theorem noRaw_insts (is : List (Inst V DestLabel)) : NoRaw (is.map .inst) := by
  intro op hop l off e
  subst e
  simp at hop

theorem keepsLabels_insts (is : List (Inst V DestLabel)) (s) : KeepsLabels s (is.map .inst) := by
  induction is generalizing s with
  | nil => trivial
  | cons i is ih => exact ⟨by simp, ih _⟩

theorem bindsOnce_none {l : DestLabel} {s} {h : List Op} (hb : ∀ op ∈ h, ¬ op.binds l) : BindsOnce l s h := by
  induction h generalizing s with
  | nil => trivial
  | cons op ops ih => exact ⟨fun h => absurd h (hb op (by simp)), ih fun o ho => hb o (by simp [ho])⟩

/-- A field added by a sequence of statements belongs to a label they mention. -/
theorem added_mention {is s s'} (h : RunsAll is s s') {l t} (ht : t ∈ added s s' l) :
    (∃ p off pos, t = .rel p off pos) ∧ ∃ i ∈ is, i.mentions l := by
  induction is generalizing s with
  | nil => rw [runsAll_nil] at h; subst h; simp [added] at ht
  | cons i is ih =>
    obtain ⟨s1, h1, h2⟩ := runsAll_cons.1 h
    obtain ⟨a, hi, ha⟩ := runs_items h1
    obtain ⟨b, hb⟩ := runsAll_ran h2
    rw [added_trans ha hb] at ht
    rcases List.mem_append.1 ht with ht | ht
    · obtain ⟨pre, off, post, rfl, e⟩ := added_ran ha ht
      exact ⟨⟨_, _, _, e⟩, i, by simp, items_mention hi (off := off) (by simp)⟩
    · obtain ⟨e, j, hj, hm⟩ := ih h2 ht
      exact ⟨e, j, by simp [hj], hm⟩

theorem done_caught {base s} {h : List Op} {l : DestLabel} (hA : Alloc base) (hi : HInv base s) (hr : NoRaw h)
    (hf : KeepsLabels s h) (hb : BindsOnce l s h) (hs : Sound l s) {t}
    (hk : SparesField t s h) (hd : Done base l t s) : Done base l t (runCaught h s) := by
  induction h generalizing s with
  | nil => exact hd
  | cons op ops ih =>
    rw [runCaught_cons]
    rw [noRaw_cons] at hr
    exact ih (hinv_op hi hr.1) hr.2 hf.2 hb.2 (sound_op hi hr.1 hf.1 hb.1 hs) (fun pos hc => (hk pos hc).2)
      (done_op hA hi hr.1 hf.1 hb.1 hs (fun pos hc => (hk pos hc).1) hd)

theorem hinv_fin {base s s'} (hi : HInv base s) (hfin : finalize s = .ok () s') : HInv base s' := by
  have := hinv_op (op := .finalize) hi (by simp)
  simpa only [Op.run, hfin, Res.state_ok] using this

/-- The parts of a history around a `finalize`. -/
theorem along_fin {P s h2 h3 s'} (hfin : finalize (runCaught h2 s) = .ok () s')
    (h : Along P s (h2 ++ .finalize :: h3)) : Along P s h2 ∧ P (runCaught h2 s) .finalize ∧ Along P s' h3 := by
  rw [along_append] at h
  refine ⟨h.1, h.2.1, ?_⟩
  have := h.2.2
  simpa only [Op.run, hfin, Res.state_ok] using this

theorem keepsLabels_fin {s h2 h3 s'} (hfin : finalize (runCaught h2 s) = .ok () s')
    (h : KeepsLabels s (h2 ++ .finalize :: h3)) : KeepsLabels s h2 ∧ KeepsLabels s' h3 := by
  rw [keepsLabels_append] at h
  refine ⟨h.1, ?_⟩
  have := h.2.2
  simpa only [Op.run, hfin, Res.state_ok] using this

theorem caught_fin {s h2 h3 s'} (hfin : finalize (runCaught h2 s) = .ok () s') :
    runCaught (h2 ++ .finalize :: h3) s = runCaught h3 s' := by
  rw [runCaught_append, runCaught_cons]
  show runCaught h3 (finalize (runCaught h2 s)).state = _
  rw [hfin]; rfl

/-- A field is resolved at the `finalize` after which its label is bound, at the latest. -/
theorem field_fin {base s s'} {h2 h3 : List Op} {l : DestLabel} (hA : Alloc base) (hi : HInv base s)
    (hr : NoRaw (h2 ++ .finalize :: h3)) (hf : KeepsLabels s (h2 ++ .finalize :: h3))
    (hb : BindsOnce l s (h2 ++ .finalize :: h3)) (hs : Sound l s) {t} (hk : SparesField t s (h2 ++ .finalize :: h3))
    (ht : t ∈ targets s l) (hfin : finalize (runCaught h2 s) = .ok () s') (hbd : ∃ a, HasAddress s' l a) :
    Done base l t (runCaught (h2 ++ .finalize :: h3) s) := by
  rw [caught_fin hfin]
  have hr' := noRaw_append.1 hr
  obtain ⟨hf2, hf3⟩ := keepsLabels_fin hfin hf
  obtain ⟨hb2, hbf, hb3⟩ := along_fin hfin hb
  have hi2 := hinv_caught hi hr'.1
  have hk' := fun pos hc => along_fin hfin (hk pos hc)
  obtain ⟨hs2, ht2⟩ := track hA hi hr'.1 hf2 hb2 hs (fun pos hc => (hk' pos hc).1) (.inl ht)
  have hs3 := sound_op (op := .finalize) hi2 (by simp) (fun _ => finalize_keeps hfin) hbf hs2
  simp only [Op.run, hfin, Res.state_ok] at hs3
  refine done_caught hA (hinv_fin hi2 hfin) (noRaw_cons.1 hr'.2).2 hf3 hb3 hs3 (fun pos hc => (hk' pos hc).2.2) ?_
  rcases ht2 with h | h
  · have f := finalize_hinv hi2 hfin
    obtain ⟨a, ha⟩ := hbd
    obtain ⟨q, c, hl, rfl⟩ := (hasAddress_iff f.inv hA.pos).1 ha
    exact ⟨f.filled l _ (by rw [hl]; simp) h, _, ha, resolved_field f hA h ha⟩
  · have := done_op (op := .finalize) hA hi2 (by simp) (fun _ => finalize_keeps hfin) hbf hs2
      (fun pos hc => (hk' pos hc).2.1) h
    simpa only [Op.run, hfin, Res.state_ok] using this

theorem linked_from {base} {h2 h3 : List Op} {is : List (Inst V DestLabel)} {s0 s1 s' : JitMemory}
    (hA : Alloc base) (hi0 : HInv base s0) (hrun : RunsAll is s0 s1) (hi1 : HInv base s1)
    (hr : NoRaw (h2 ++ .finalize :: h3)) (hf : KeepsLabels s1 (h2 ++ .finalize :: h3))
    (hk : SparesRange (here s0) (here s1 - here s0) s1 (h2 ++ .finalize :: h3))
    (hb : ∀ i ∈ is, ∀ l, i.mentions l → BindsOnce l s1 (h2 ++ .finalize :: h3) ∧ Sound l s1)
    (hfin : finalize (runCaught h2 s1) = .ok () s') (hbd : AllBound s' is) :
    Linked s0 s1 (labelAddr (runCaught (h2 ++ .finalize :: h3) s1)) (runCaught (h2 ++ .finalize :: h3) s1).mem := by
  obtain ⟨its, hran⟩ := runsAll_ran hrun
  have hcont := fun p => hi0.inv.contents p
  have hcont1 := fun p => hi1.inv.contents p
  refine ⟨fun l p off pos ht => ?_, fun x hx1 hx2 hx => ?_⟩
  · obtain ⟨_, i, him, hml⟩ := added_mention hrun ht
    obtain ⟨hp, hs1, hs2⟩ := slot_range hran ht
    have hsp : SparesField (.rel p off pos) s1 (h2 ++ .finalize :: h3) := by
      intro q hc
      obtain ⟨_, hc2, hc3⟩ := hc
      simp only [TargetType.pos, TargetType.size, TargetType.page] at hc2 hc3 ⊢
      rw [hcont] at hs1 hs2
      refine spares_range hi1.inv ?_ ?_ hk
      · simp only [addrOf]; omega
      · simp only [addrOf]; omega
    have hD := field_fin hA hi1 hr hf (hb i him l hml).1 (hb i him l hml).2 hsp (added_mem ht) hfin (hbd i him l hml)
    obtain ⟨a', ha', v, hv1, hv2⟩ := hD.leads
    rw [labelAddr_eq ha', hcont]
    have : BitVec.ofInt 32 ((a' : Int) - (addrOf base p pos + off.toNat : Nat)) = v := by
      rw [← hv2]
      have : v.toInt + ((addrOf base p pos + off.toNat : Nat) : Int) - ((addrOf base p pos + off.toNat : Nat) : Int) = v.toInt := by omega
      rw [this, BitVec.ofInt_toInt]
    simp only [addrOf] at this hv1
    rw [this]
    exact hv1
  · have hcs : s1.page = s0.page := hran.page
    have hh1 : here s1 = base + PAGE_SIZE * s0.page + cursor s1 s0.page := by
      simp only [here, hcont1, hcs, cursor]
    have hh0 : here s0 = base + PAGE_SIZE * s0.page + cursor s0 s0.page := by
      simp only [here, hcont, cursor]
    obtain ⟨c, rfl⟩ : ∃ c, x = addrOf base s0.page c := ⟨x - (base + PAGE_SIZE * s0.page), by
      simp only [addrOf]; omega⟩
    have hc : cursor s0 s0.page ≤ c ∧ c < cursor s1 s0.page := by
      simp only [addrOf] at hx1 hx2; omega
    have hset : Settled s1 s0.page c := by
      refine ⟨hc.2, fun l t ht hl hcov => ?_⟩
      rw [hran.targets] at ht
      rcases List.mem_append.1 ht with ht | ht
      · have := hi0.slots.inside l t ht hl
        obtain ⟨h1', h2', h3'⟩ := hcov
        rw [h1'] at this
        omega
      · rw [← ran_added hran] at ht
        obtain ⟨⟨p, off, pos, rfl⟩, _⟩ := added_mention hrun ht
        obtain ⟨h1', h2', h3'⟩ := hcov
        simp only [TargetType.pos, TargetType.size, TargetType.page] at h1' h2' h3'
        have := hx l p off pos ht
        rw [hcont, h1'] at this
        simp only [addrOf] at this
        omega
    exact kept_mem hi1 hr hf hset (spares_range hi1.inv hx1 (by omega) hk)

/-- Once all labels are bound at a `finalize`, the code of a sequence of statements is linked, and
    stays so. -/
theorem linked_reach {base mem} {h1 h : List Op} {h2 h3 : List Op} {is : List (Inst V DestLabel)} {s1 s' : JitMemory}
    (hA : Alloc base) (e : h = h2 ++ .finalize :: h3) (hr : NoRaw (h1 ++ is.map .inst ++ h))
    (hf : KeepsLabels (JitMemory.new base mem) (h1 ++ is.map .inst ++ h))
    (hrun : RunsAll is (reach base mem h1) s1)
    (hk : SparesRange (here (reach base mem h1)) (here s1 - here (reach base mem h1)) s1 h)
    (hb : ∀ i ∈ is, ∀ l, i.mentions l → BindsOnce l (JitMemory.new base mem) (h1 ++ is.map .inst ++ h))
    (hfin : finalize (reach base mem (h1 ++ is.map .inst ++ h2)) = .ok () s') (hbd : AllBound s' is) :
    Linked (reach base mem h1) s1 (labelAddr (reach base mem (h1 ++ is.map .inst ++ h)))
      (reach base mem (h1 ++ is.map .inst ++ h)).mem := by
  have e1 : runCaught (h1 ++ is.map .inst) (JitMemory.new base mem) = s1 := by
    rw [runCaught_append]; exact runsAll_caught hrun
  rw [noRaw_append] at hr
  rw [keepsLabels_append, e1] at hf
  have hb' := fun i hi l hl => along_append.1 (hb i hi l hl)
  rw [e1] at hb'
  have e2 : reach base mem (h1 ++ is.map .inst ++ h) = runCaught h s1 := by
    rw [reach, runCaught_append, e1]
  have e3 : reach base mem (h1 ++ is.map .inst ++ h2) = runCaught h2 s1 := by
    rw [reach, runCaught_append, e1]
  rw [e2]
  rw [e3] at hfin
  have hi1 : HInv base s1 := e1 ▸ hinv_reach (base := base) (mem := mem) hr.1
  have hi0 : HInv base (reach base mem h1) := hinv_reach (base := base) (mem := mem) (noRaw_append.1 hr.1).1
  have hsound := fun i hi l hl => e1 ▸ sound_caught (hinv_new base mem) hr.1 hf.1 (hb' i hi l hl).1 (sound_new base mem l)
  subst e
  exact linked_from hA hi0 hrun hi1 hr.2 hf.2 hk (fun i hi l hl => ⟨(hb' i hi l hl).2, hsound i hi l hl⟩) hfin hbd

end Monoasm
