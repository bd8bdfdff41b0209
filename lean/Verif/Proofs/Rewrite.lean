import Verif.Proofs.Alter
/-
  Patching a jump and assembling it with the new label in the first place.
-/

set_option linter.unusedSimpArgs false

namespace Monoasm
open JitMemory Spec X86

variable {base : Nat} {mem : Nat → Monoasm.Byte} {H : List Op} {n : Nat} {i : Inst Val Nat} {l d : DestLabel}

/-- Four bytes are those of a number. -/
theorem le32_append (b0 b1 b2 b3 : BitVec 8) : le32 (b3 ++ b2 ++ b1 ++ b0) = [b0, b1, b2, b3] := by
  have key : ∀ k, (b3 ++ b2 ++ b1 ++ b0 : BitVec (8 + 8 + 8 + 8)).getLsbD k
      = if k < 8 then b0.getLsbD k else if k - 8 < 8 then b1.getLsbD (k - 8) else if k - 8 - 8 < 8 then b2.getLsbD (k - 8 - 8)
        else b3.getLsbD (k - 8 - 8 - 8) := by
    intro k
    rw [BitVec.getLsbD_append, BitVec.getLsbD_append, BitVec.getLsbD_append]
  simp only [le32, List.cons.injEq, and_true]
  refine ⟨?_, ?_, ?_, ?_⟩ <;> apply BitVec.eq_of_getLsbD_eq <;> intro i hi <;>
    simp only [BitVec.getLsbD_setWidth, BitVec.getLsbD_ushiftRight, hi, decide_true, Bool.true_and]
  · exact (key i).trans (by rw [if_pos hi])
  · exact (key (8 + i)).trans (by rw [if_neg (by omega), if_pos (by omega), show 8 + i - 8 = i by omega])
  · exact (key (16 + i)).trans (by rw [if_neg (by omega), if_neg (by omega), if_pos (by omega), show 16 + i - 8 - 8 = i by omega])
  · exact (key (24 + i)).trans (by rw [if_neg (by omega), if_neg (by omega), if_neg (by omega), show 24 + i - 8 - 8 - 8 = i by omega])

theorem four_bytes (m : Nat → Monoasm.Byte) (a : Nat) : ∃ v, bytes m a 4 = le32 v :=
  ⟨m (a + 3) ++ m (a + 2) ++ m (a + 1) ++ m a, by rw [le32_append]; rfl⟩

theorem retarget_patchable (hp : Patchable i l) : Patchable (retarget d i) d ∧ opcodeOf (retarget d i) = opcodeOf i := by
  rcases hp with rfl | rfl
  · exact ⟨.inl rfl, rfl⟩
  · exact ⟨.inr rfl, rfl⟩

theorem patchable_run (hp : Patchable i l) : (Op.inst i).run = runItems [.i8 (opcodeOf i), .rel l 4] := by
  apply Op.run_items
  rcases hp with rfl | rfl <;> rfl

/-- The label of the field. -/
theorem map_strip_add (t : TargetType) (ls : List LabelInfo) (l : Nat) :
    (ls.modify l fun i => { i with target := i.target ++ [t] }).map (strip t) = ls.map (strip t) := by
  rw [map_modify_of (strip t) _ id (fun i => by simp [strip])]
  exact List.modify_id l _

/-- The label of a jump that is assembled exists. -/
theorem patchable_label {s s1 : JitMemory} (hp : Patchable i l) (h : (Op.inst i).run s = .ok () s1) : l < s.labels.length := by
  rw [patchable_run hp, runItems_cons] at h
  obtain ⟨_, u, e1, h⟩ := bind_ok h
  simp only [Item.run, JitMemory.emitb, cur_bind, emitb_run] at e1
  obtain ⟨hc, rfl⟩ := emitRes_ok e1
  rw [runItems_cons] at h
  obtain ⟨_, v, e2, h⟩ := bind_ok h
  simp only [Item.run] at e2
  obtain ⟨_, w, e3, e4⟩ := bind_ok e2
  rcases Nat.lt_or_ge l s.labels.length with h | h
  · exact h
  · simp only [save_reloc, M.bind_def, JitMemory.cur, MemPage.counterOf] at e3
    rw [modifyLabel_none (by exact h)] at e3
    cases e3

/-- The statement with the other label. -/
theorem alter_inst {s s1 : JitMemory} (hi : Inv base s) (hp : Patchable i l) (h : (Op.inst i).run s = .ok () s1) (hd : d < s.labels.length) :
    ∃ s2, (Op.inst (retarget d i)).run s = .ok () s2 ∧ Live (.rel s.page 4 (cursor s s.page + 1))
      ∧ base + PAGE_SIZE * s.page + (cursor s s.page + 1) = here s + 1
      ∧ Alter (.rel s.page 4 (cursor s s.page + 1)) (here s + 1) s1 s2 := by
  obtain ⟨hp', ho⟩ := retarget_patchable (d := d) hp
  rw [patchable_run hp] at h
  rw [patchable_run hp', ho]
  rw [runItems_cons] at h ⊢
  obtain ⟨_, u, e1, h⟩ := bind_ok h
  rw [ok_bind e1]
  simp only [Item.run, JitMemory.emitb, cur_bind, emitb_run] at e1
  obtain ⟨hc, rfl⟩ := emitRes_ok e1
  rw [runItems_cons] at h ⊢
  obtain ⟨_, v, e2, h⟩ := bind_ok h
  cases h
  simp only [Item.run] at e2
  obtain ⟨_, w, e3, e4⟩ := bind_ok e2
  have hcur : ((emitted s s.page [opcodeOf i]).pages (emitted s s.page [opcodeOf i]).page).counter = cursor s s.page + 1 := by
    simp [emitted, Spec.cursor]
  have hpg : (emitted s s.page [opcodeOf i]).page = s.page := rfl
  have save : ∀ k, k < s.labels.length → save_reloc k 4 (emitted s s.page [opcodeOf i])
      = .ok () { emitted s s.page [opcodeOf i] with labels := s.labels.modify k fun i => { i with target := i.target ++ [.rel s.page 4 (cursor s s.page + 1)] } } := by
    intro k hk
    simp only [save_reloc, M.bind_def, JitMemory.cur, MemPage.counterOf, hcur]
    rw [JitMemory.modifyLabel, if_pos (by exact hk)]
    rfl
  have hl : l < s.labels.length := by
    rcases Nat.lt_or_ge l s.labels.length with h | h
    · exact h
    · simp only [save_reloc, M.bind_def, JitMemory.cur, MemPage.counterOf] at e3
      rw [modifyLabel_none (by exact h)] at e3
      cases e3
  rw [save l hl] at e3
  cases e3
  have hA : Alter (.rel s.page 4 (cursor s s.page + 1)) (here s + 1)
      { emitted s s.page [opcodeOf i] with labels := s.labels.modify l fun i => { i with target := i.target ++ [.rel s.page 4 (cursor s s.page + 1)] } }
      { emitted s s.page [opcodeOf i] with labels := s.labels.modify d fun i => { i with target := i.target ++ [.rel s.page 4 (cursor s s.page + 1)] } } :=
    ⟨rfl, rfl, by simp only [map_strip_add], fun _ _ => rfl⟩
  have hlive : Live (.rel s.page 4 (cursor s s.page + 1)) := by
    have e5 := e4
    simp only [JitMemory.emitl, cur_bind, emitl_run] at e5
    have := (emitRes_ok e5).1
    simp only [le32_length] at this
    show cursor s s.page + 1 + 4 ≤ PAGE_SIZE
    exact hcur ▸ this
  obtain ⟨v2, e6, hA⟩ := Agrees.bind .cur (fun _ => .emitl _ _) _ _ _ _ hA e4
  refine ⟨v2, ?_, hlive, ?_, hA⟩
  · simp only [Item.run]
    rw [ok_bind (m := do save_reloc d 4; JitMemory.emitl 0) ((ok_bind (save d hd)).trans e6)]
    rfl
  · simp only [here, hi.contents, Spec.cursor]; omega

theorem trialFrom_append {s : JitMemory} {a b : List Op} : trialFrom s (a ++ b) = (trialFrom s a).bind fun s => trialFrom s b := by
  induction a generalizing s with
  | nil => rfl
  | cons op ops ih =>
    simp only [List.cons_append, trialFrom]
    split
    · split
      · exact ih
      · rfl
    · rfl

theorem set_split {op op' : Op} (hn : H[n]? = some op) : H.set n op' = H.take n ++ op' :: H.drop (n + 1) := by
  obtain ⟨h, -⟩ := List.getElem?_eq_some_iff.1 hn
  rw [List.set_eq_take_append_cons_drop, if_pos h]

/-- Trial of the rewritten program, and the state in the end. -/
theorem rewritten (hA : Alloc base) (h : trial base mem H = true) (hn : H[n]? = some (.inst i)) (hp : Patchable i l)
    (hd : Op.bind_label d ∈ H ∨ Op.inst (.Label d) ∈ H) (he : d < (reach base mem (H.take n)).labels.length) :
    trial base mem (H.set n (.inst (retarget d i))) = true
    ∧ Live (.rel (reach base mem (H.take n)).page 4 (cursor (reach base mem (H.take n)) (reach base mem (H.take n)).page + 1))
    ∧ Alter (.rel (reach base mem (H.take n)).page 4 (cursor (reach base mem (H.take n)) (reach base mem (H.take n)).page + 1))
        (Spec.place base mem H n + 1) (reach base mem H) (reach base mem (H.set n (.inst (retarget d i)))) := by
  have t := tried h
  obtain ⟨hp', -⟩ := retarget_patchable (d := d) hp
  have hb : ((reach base mem H).locOf d).isSome := by
    have : ∃ m : Nat, H[m]? = some (.bind_label d) ∨ H[m]? = some (.inst (.Label d)) := by
      rcases hd with hd | hd <;> obtain ⟨m, hm⟩ := List.mem_iff_getElem?.1 hd
      · exact ⟨m, .inl hm⟩
      · exact ⟨m, .inr hm⟩
    obtain ⟨m, hm⟩ := this
    exact locOf_of_hasAddress (binds_address hA t.raw t.noPanic (t.once d) (t.binds hm))
  rw [trial] at h
  split at h
  case h_2 => cases h
  rename_i s e
  have er : reach base mem H = s := runCaught_of_ok (went e).run
  have e0 := e
  have eH : H = H.take n ++ .inst i :: H.drop (n + 1) := by rw [List.append_cons]; exact split_at hn
  rw [eH, trialFrom_append] at e
  obtain ⟨s0, e1, e2⟩ := Option.bind_eq_some_iff.1 e
  have er0 : reach base mem (H.take n) = s0 := runCaught_of_ok (went e1).run
  rw [er0] at he ⊢
  have hi0 : Inv base s0 := er0 ▸ inv_reach base mem _
  rw [trialFrom] at e2
  split at e2
  case isFalse => cases e2
  rename_i hc
  split at e2
  case h_2 => cases e2
  rename_i s1 e3
  obtain ⟨s2, e4, hlive, hx, hS⟩ := alter_inst hi0 hp e3 he
  have hi1 := inv_op hi0 (.inst i)
  rw [e3] at hi1
  obtain ⟨s', e5, hA'⟩ := trialFrom_alter (t := .rel s0.page 4 (cursor s0 s0.page + 1)) hi1 (x := here s0 + 1) hx rfl hlive
    ⟨_, _, _, rfl, Nat.lt_of_lt_of_le hi0.page (by decide), by decide⟩ hS e2
  have eT : trialFrom (JitMemory.new base mem) (H.set n (.inst (retarget d i))) = some s' := by
    rw [set_split hn, trialFrom_append, e1]
    show trialFrom s0 _ = _
    rw [trialFrom, if_pos, e4]
    · exact e5
    · rcases hp with rfl | rfl <;> rfl
  have er' : reach base mem (H.set n (.inst (retarget d i))) = s' := runCaught_of_ok (went eT).run
  have epl : Spec.place base mem H n = here s0 := by rw [Spec.place, er0]
  refine ⟨?_, hlive, by rw [er, er', epl]; exact hA'⟩
  rw [trial, eT]
  simp only [Bool.and_eq_true, List.all_eq_true] at h ⊢
  have hfin : n + 1 < H.length := by
    obtain ⟨h1, -⟩ := List.getElem?_eq_some_iff.1 hn
    rcases Nat.lt_or_ge (n + 1) H.length with h2 | h2
    · exact h2
    · have h3 := t.last.1
      rw [show H.length - 1 = n by omega, hn] at h3
      cases h3
  refine ⟨?_, fun op hop => ?_⟩
  · have := h.1
    simp only [endsWithFinalize, List.getLast?_eq_getElem?, List.length_set] at this ⊢
    rwa [List.getElem?_set_ne (by omega)]
  · have eP : (H.set n (.inst (retarget d i))).filterMap placedHere = H.filterMap placedHere := by
      rw [set_split hn]
      conv => rhs; rw [eH]
      simp only [List.filterMap_append, List.filterMap_cons]
      rcases hp with rfl | rfl <;> rfl
    rw [eP]
    rcases List.mem_or_eq_of_mem_set hop with hop | rfl
    · have := h.2 op hop
      unfold settledB at this ⊢
      split
      · simpa only [hA'.boundB] using this
      · rfl
    · have hb' : boundB s' d = true := by rw [hA'.boundB, boundB_eq, ← er]; exact hb
      have hq : (H.filterMap placedHere).contains d = true := List.contains_iff_mem.2 (placed_mem hd)
      have : settledB s' (H.filterMap placedHere) (.inst (retarget d i))
          = ([d].all (fun l => boundB s' l) && (!true || [d].all (fun l => (H.filterMap placedHere).contains l))) := by
        rcases hp with rfl | rfl <;> rfl
      rw [this, List.all_cons, List.all_cons, hb', hq]
      rfl

/-- Places in the code are the same. -/
theorem rewritten_place (h : trial base mem H = true) (hn : H[n]? = some (.inst i)) (hp : Patchable i l)
    (he : d < (reach base mem (H.take n)).labels.length) (m : Nat) :
    Spec.place base mem (H.set n (.inst (retarget d i))) m = Spec.place base mem H m := by
  rcases Nat.lt_or_ge n m with hlt | hge
  · rw [trial] at h
    split at h
    case h_2 => cases h
    rename_i s e
    rw [← List.take_append_drop m H, trialFrom_append] at e
    obtain ⟨sm, e, -⟩ := Option.bind_eq_some_iff.1 e
    have er : reach base mem (H.take m) = sm := runCaught_of_ok (went e).run
    have hs : (H.take m)[n]? = some (.inst i) := by rw [List.getElem?_take_of_lt hlt]; exact hn
    have hs0 : (H.take m).take n = H.take n := by rw [List.take_take, Nat.min_eq_left (Nat.le_of_lt hlt)]
    have eH := split_at hs
    rw [← List.append_cons] at eH
    rw [eH, hs0, trialFrom_append] at e
    obtain ⟨s0, e1, e2⟩ := Option.bind_eq_some_iff.1 e
    have er0 : reach base mem (H.take n) = s0 := runCaught_of_ok (went e1).run
    rw [er0] at he
    have hi0 : Inv base s0 := er0 ▸ inv_reach base mem _
    rw [trialFrom] at e2
    split at e2
    case isFalse => cases e2
    rename_i hc
    split at e2
    case h_2 => cases e2
    rename_i s1 e3
    obtain ⟨s2, e4, hlive, hx, hS⟩ := alter_inst hi0 hp e3 he
    have hi1 := inv_op hi0 (.inst i)
    rw [e3] at hi1
    obtain ⟨s', e5, hA'⟩ := trialFrom_alter (t := .rel s0.page 4 (cursor s0 s0.page + 1)) hi1 (x := here s0 + 1) hx rfl hlive
      ⟨_, _, _, rfl, Nat.lt_of_lt_of_le hi0.page (by decide), by decide⟩ hS e2
    have eT : trialFrom (JitMemory.new base mem) ((H.set n (.inst (retarget d i))).take m) = some s' := by
      rw [List.take_set, set_split hs, hs0, trialFrom_append, e1]
      show trialFrom s0 _ = _
      rw [trialFrom, if_pos, e4]
      · exact e5
      · rcases hp with rfl | rfl <;> rfl
    have er' : reach base mem ((H.set n (.inst (retarget d i))).take m) = s' := runCaught_of_ok (went eT).run
    rw [Spec.place, Spec.place, er, er', here, here, hA'.page, hA'.pages]
  · rw [Spec.place, Spec.place, List.take_set_of_le hge]

/-! ### The field of a jump at the end -/

theorem Tried.address (t : Tried base mem H) (hA : Alloc base) (hi : .inst i ∈ H) {l} (hl : i.mentions l) :
    ∃ a, HasAddress (reach base mem H) l a := by
  obtain ⟨⟨p, c⟩, hc⟩ := Option.isSome_iff_exists.1 (t.bound i hi l hl)
  exact ⟨_, hasAddress_of_loc (inv_reach base mem H) hA.pos hc⟩

theorem patchable_mentions (hp : Patchable i l) : i.mentions l := by
  rcases hp with rfl | rfl <;> exact List.mem_singleton.2 rfl

theorem field_settled (t : Tried base mem H) (hA : Alloc base) (hn : H[n]? = some (.inst i)) (hp : Patchable i l) :
    Settled (reach base mem H) (reach base mem (H.take n)).page (cursor (reach base mem (H.take n)) (reach base mem (H.take n)).page + 1) := by
  obtain ⟨s1, h1⟩ := t.runs hn
  have e1 := runs_reach hn h1
  rw [← e1] at h1
  obtain ⟨-, -, -, -, q5⟩ := patchable_runs (hinv_take (base := base) (mem := mem) t.raw n) hp h1
  obtain ⟨a, ha⟩ := t.address hA (List.mem_of_getElem? hn) (patchable_mentions hp)
  obtain ⟨hk, hk0⟩ := t.last
  have el : H.length - 1 + 1 = H.length := by omega
  have hnl : n < H.length := (List.getElem?_eq_some_iff.1 hn).1
  have hne : n ≠ H.length - 1 := by
    rintro e
    rw [← e, hn] at hk
    cases hk
  have := settled_resolved hA t.raw t.noPanic q5 (by omega) (finishes_at (noFinalizePanic_runOps t.run) hk) (by rw [el, List.take_length]; exact ha)
    (pos := cursor (reach base mem (H.take n)) (reach base mem (H.take n)).page + 1) ⟨rfl, Nat.le_refl _, Nat.lt_add_of_pos_right (Nat.zero_lt_succ 3)⟩
  rwa [el, List.take_length] at this

/-- Nothing is pending at the field. -/
theorem strip_settled {s : JitMemory} {t : TargetType} (hl : Live t) (hz : 0 < t.size) (h : Settled s t.page t.pos) :
    s.labels.map (strip t) = s.labels := by
  conv => rhs; rw [← List.map_id s.labels]
  refine List.map_congr_left fun i hi => ?_
  obtain ⟨l, hl'⟩ := List.mem_iff_getElem?.1 hi
  have : ∀ u ∈ i.target, u ≠ t := by
    rintro u hu rfl
    exact h.2 l u (by simp only [targets, hl']; exact hu) hl ⟨rfl, Nat.le_refl _, Nat.lt_add_of_pos_right hz⟩
  obtain ⟨loc, tg⟩ := i
  simp only [strip, id, LabelInfo.mk.injEq, true_and]
  exact List.filter_eq_self.2 fun u hu => by simpa using this u hu

theorem signExtend32_inj {v w : BitVec 32} (h : v.signExtend 64 = w.signExtend 64) : v = w := by
  apply BitVec.eq_of_toInt_eq
  rw [← toInt_signExtend32 v, h, toInt_signExtend32]

theorem field_bytes (t : Tried base mem H) (hA : Alloc base) (hn : H[n]? = some (.inst i)) (hp : Patchable i l) {a}
    (ha : HasAddress (reach base mem H) l a) :
    bytes (reach base mem H).mem (Spec.place base mem H n + 1) 4
      = le32 ((BitVec.ofNat 64 a - BitVec.ofNat 64 (Spec.place base mem H n) - 5).setWidth 32) := by
  obtain ⟨s1, h1⟩ := t.runs hn
  have e1 := runs_reach hn h1
  rw [← e1] at h1
  have hi := hinv_take (base := base) (mem := mem) t.raw n
  have hi1 := hinv_take (base := base) (mem := mem) t.raw (n + 1)
  obtain ⟨q1, q2, q3, q4, -⟩ := patchable_runs hi hp h1
  have ep : Spec.place base mem H n = addrOf base (reach base mem (H.take n)).page
    (cursor (reach base mem (H.take n)) (reach base mem (H.take n)).page) := q3
  have e5 : Spec.place base mem H (n + 1) = Spec.place base mem H n + 5 := q1
  have h0 : (reach base mem H).mem (Spec.place base mem H n) = opcodeOf i := by
    have := kept_mem hi1 (noRaw_take t.raw _).2 (keepsLabels_at t.noPanic _).2 q4 (spares_range (a := Spec.place base mem H n) (n := 1) hi1.inv
      (by rw [ep]; exact Nat.le_refl _) (by rw [ep]; exact Nat.lt_succ_self _) (sparesRange_tame fun op hop => t.tame op (List.mem_of_mem_drop hop)))
    rw [← reach_take, ← ep] at this
    rw [this]; exact q2
  have r1 : base ≤ Spec.place base mem H n := by rw [ep, addrOf, Nat.add_assoc]; exact Nat.le_add_right _ _
  have r2 : Spec.place base mem H n ≤ base + 3 * PAGE_SIZE := by
    have q7 : cursor (reach base mem (H.take n)) (reach base mem (H.take n)).page ≤ PAGE_SIZE := hi.inv.counter _
    rw [ep, addrOf]
    rcases page_lt_two hi.inv.page with g | g <;> rw [g] at q7 ⊢ <;> rw [PAGE_SIZE_eq] at * <;> omega
  obtain ⟨b1, b2⟩ := addr_range (inv_reach base mem H) hA.pos ha
  have hu := hA.user
  have ev : ((BitVec.ofNat 64 a - BitVec.ofNat 64 (Spec.place base mem H n) - 5).setWidth 32).signExtend 64
      = dist (labelAddr (reach base mem H)) (Spec.place base mem H (n + 1)) l := by
    apply BitVec.eq_of_toInt_eq
    rw [toInt_signExtend32, dist, labelAddr_eq ha, e5, BitVec.toInt_ofInt,
      Int.bmod_eq_of_le (by rw [PAGE_SIZE_eq] at *; omega) (by rw [PAGE_SIZE_eq] at *; omega)]
    have := offset_toInt (x := a) (y := Spec.place base mem H n) (by rw [PAGE_SIZE_eq] at *; omega) (by rw [PAGE_SIZE_eq] at *; omega)
    omega
  obtain ⟨v, hv⟩ := four_bytes (reach base mem H).mem (Spec.place base mem H n + 1)
  have hv4 : X86.imm32 (le32 v) = some (v.signExtend 64, []) := by simpa using imm32_le32 v []
  rw [hv]
  congr 1
  apply signExtend32_inj
  rw [ev]
  rcases hp with rfl | rfl
  · have hd := decode_at hA t.raw t.noPanic hn (t.ready hA hn) rfl []
    rw [e5, Nat.add_sub_cancel_left, bytes_one, hv, h0] at hd
    simp [X86.decode, X86.prefixes, X86.isRex, X86.dispatch, X86.map1, hv4, opcodeOf] at hd
    rw [hd, e5]
  · have hd := decode_at hA t.raw t.noPanic hn (t.ready hA hn) rfl []
    rw [e5, Nat.add_sub_cancel_left, bytes_one, hv, h0] at hd
    simp [X86.decode, X86.prefixes, X86.isRex, X86.dispatch, X86.map1, hv4, opcodeOf] at hd
    rw [hd, e5]

/-- A patch has the effect of assembling the jump with the new label in the first place. -/
theorem patch_rewrites (hA : Alloc base) (h : trial base mem H = true) (hn : H[n]? = some (.inst i)) (hp : Patchable i l)
    (hd : Op.bind_label d ∈ H ∨ Op.inst (.Label d) ∈ H) (he : d < (reach base mem (H.take n)).labels.length) :
    apply_jmp_patch_address (Spec.place base mem H n) d (reach base mem H) = .ok () (reach base mem (H.set n (.inst (retarget d i)))) := by
  obtain ⟨h', hlive, hS⟩ := rewritten hA h hn hp hd he
  have t := tried h
  have t' := tried h'
  have hn' : (H.set n (.inst (retarget d i)))[n]? = some (.inst (retarget d i)) := by
    rw [List.getElem?_set_self (List.getElem?_eq_some_iff.1 hn).1]
  have etk : (H.set n (.inst (retarget d i))).take n = H.take n := by
    rw [set_split hn, List.take_left' (List.length_take_of_le (Nat.le_of_lt (List.getElem?_eq_some_iff.1 hn).1))]
  obtain ⟨hp', -⟩ := retarget_patchable (d := d) hp
  have f := field_settled t hA hn hp
  have f' := field_settled t' hA hn' hp'
  rw [etk] at f'
  obtain ⟨a, ha'⟩ := t'.address hA (List.mem_of_getElem? hn') (patchable_mentions hp')
  have ha : HasAddress (reach base mem H) d a := by
    obtain ⟨p, c, h1, h2⟩ := (hasAddress_iff (inv_reach base mem _) hA.pos).1 ha'
    exact (hasAddress_iff (inv_reach base mem _) hA.pos).2 ⟨p, c, by rw [← hS.locOf]; exact h1, h2⟩
  have fb := field_bytes t' hA hn' hp' ha'
  have epl : Spec.place base mem (H.set n (.inst (retarget d i))) n = Spec.place base mem H n := by rw [Spec.place, Spec.place, etk]
  rw [epl] at fb
  obtain ⟨m, e1, e2, e3⟩ := patch_run (y := Spec.place base mem H n) ha
  rw [e1]
  congr 1
  have em : m = (reach base mem (H.set n (.inst (retarget d i)))).mem := by
    funext x
    by_cases hx : Spec.place base mem H n + 1 ≤ x ∧ x < Spec.place base mem H n + 1 + 4
    · obtain ⟨j, rfl⟩ := Nat.exists_eq_add_of_le hx.1
      rw [← fb] at e3
      have := congrArg (fun xs => xs[j]?) e3
      simp only [bytes, List.getElem?_map, List.getElem?_range (show j < 4 by omega), Option.map_some, Option.some.injEq] at this
      exact this
    · rw [e2 x (by omega), hS.mem x hx]
  have el : (reach base mem H).labels = (reach base mem (H.set n (.inst (retarget d i)))).labels := by
    have := hS.labels
    rwa [strip_settled hlive (Nat.zero_lt_succ _) f, strip_settled hlive (Nat.zero_lt_succ _) f'] at this
  generalize reach base mem (H.set n (.inst (retarget d i))) = s' at *
  generalize reach base mem H = s at *
  cases s
  cases s'
  cases hS.page
  cases hS.pages
  simp only at em el
  rw [em, el]

end Monoasm
