import Verif.Spec.Trial
import Verif.Proofs.Converse
import Verif.Proofs.Move
/-
  Helper lemmas for C62.
-/

namespace Monoasm
open Spec X86 JitMemory

variable {base : Nat} {mem : Nat → Monoasm.Byte} {H : List Op}

theorem boundB_eq (s : JitMemory) (l : DestLabel) : boundB s l = (s.locOf l).isSome := by
  rcases Nat.lt_or_ge l s.labels.length with h | h
  · rw [boundB, get_label_pos_eq s l h]
    cases s.locOf l <;> rfl
  · rw [boundB, get_label_pos, panic_bind (labelInfo_none h)]
    simp [JitMemory.locOf, List.getElem?_eq_none h]

theorem waitsB_of {s : JitMemory} (hi : HInv base s) {l} (h : Pending s l) : waitsB s l = true := by
  obtain ⟨p, d, h⟩ := h
  simp only [waitsB, List.any_eq_true, beq_iff_eq]
  refine ⟨(d, l), ?_, rfl⟩
  simp only [List.mem_append]
  rcases Nat.lt_or_ge p 2 with hp | hp
  · rcases page_lt_two hp with rfl | rfl
    · exact .inl h
    · exact .inr h
  · rw [(hi.lists p hp).1, (hi.lists p hp).2] at h
    simp at h

theorem binds_of {op : Op} {l} (h : op.binds l) : bindOf op = some l := by
  cases op with
  | bind_label l' => cases h; rfl
  | bind_label_with_page p l' => cases h; rfl
  | inst i => rw [binds_inst h]; rfl
  | _ => exact h.elim

theorem tame_raw {op : Op} (h : tame op = true) (l off) : op ≠ .save_reloc l off := by
  rintro rfl; cases h

theorem tame_spares {s : JitMemory} {op : Op} (h : tame op = true) (a) : ¬ Overwrites s op a := by
  intro ho
  unfold Overwrites at ho
  split at ho <;> first | (cases h; done) | exact ho

theorem tame_move {op : Op} (h : tame op = true) (b1 b2 : Nat) : op.move b1 b2 = op := by
  unfold Op.move
  split
  · cases h
  · rfl

theorem sparesRange_tame {a n s} {h : List Op} (ht : ∀ op ∈ h, tame op = true) : SparesRange a n s h := by
  induction h generalizing s with
  | nil => trivial
  | cons op ops ih => exact ⟨fun x _ _ => tame_spares (ht op (by simp)) x, ih fun o ho => ht o (by simp [ho])⟩

/-- What a trial establishes on the way. -/
structure Went (s : JitMemory) (H : List Op) (s' : JitMemory) : Prop where
  run : runOps H s = .ok () s'
  tame : ∀ op ∈ H, tame op = true
  sensible : ∀ op ∈ H, sensibleB op = true
  fresh : Along (fun s op => freshB s op = true) s H

theorem went {s s' : JitMemory} (h : trialFrom s H = some s') : Went s H s' := by
  induction H generalizing s with
  | nil => cases h; exact ⟨rfl, by simp, by simp, trivial⟩
  | cons op ops ih =>
    rw [trialFrom] at h
    split at h
    · rename_i hc
      simp only [Bool.and_eq_true] at hc
      obtain ⟨⟨h1, h2⟩, h3⟩ := hc
      split at h
      · rename_i u s1 e
        have w := ih h
        refine ⟨?_, ?_, ?_, h3, ?_⟩
        · simp only [runOps]; rw [ok_bind e]; exact w.run
        · intro o ho
          rcases List.mem_cons.1 ho with rfl | ho
          · exact h1
          · exact w.tame o ho
        · intro o ho
          rcases List.mem_cons.1 ho with rfl | ho
          · exact h2
          · exact w.sensible o ho
        · rw [e]; exact w.fresh
      · cases h
    · cases h

theorem Went.raw {s s'} (w : Went s H s') : NoRaw H := fun op hop => tame_raw (w.tame op hop)

theorem once_of_fresh {s : JitMemory} (hi : HInv base s) (hr : NoRaw H) (hf : KeepsLabels s H)
    (hfr : Along (fun s op => freshB s op = true) s H) (l : DestLabel) : BindsOnce l s H := by
  induction H generalizing s with
  | nil => trivial
  | cons op ops ih =>
    refine ⟨fun hb => ?_, ih (hinv_op hi (hr op (by simp))) (fun o ho => hr o (by simp [ho])) hf.2 hfr.2⟩
    have h := hfr.1
    simp only [freshB, binds_of hb, Bool.and_eq_true, Bool.not_eq_true'] at h
    refine ⟨fun a ha => ?_, fun hp => ?_⟩
    · have h1 := h.1
      rw [boundB] at h1
      have := ha.2
      rw [get_label_u64] at this
      obtain ⟨x, t, h2, -⟩ := bind_ok this
      rw [h2] at h1
      cases h1
    · rw [waitsB_of hi hp] at h
      cases h.2

theorem Went.once {s s'} (w : Went s H s') (hi : HInv base s) (l : DestLabel) : BindsOnce l s H :=
  once_of_fresh hi w.raw (keepsLabels_runOps w.run) w.fresh l

/-- What a trial establishes. -/
structure Tried (base : Nat) (mem : Nat → Monoasm.Byte) (H : List Op) : Prop where
  run : runOps H (JitMemory.new base mem) = .ok () (reach base mem H)
  tame : ∀ op ∈ H, Spec.tame op = true
  accepted : ∀ i, .inst i ∈ H → Accepted i
  meaningful : ∀ i, .inst i ∈ H → Meaningful i
  once : ∀ l, BindsOnce l (JitMemory.new base mem) H
  last : H[H.length - 1]? = some .finalize ∧ 0 < H.length
  bound : ∀ i, .inst i ∈ H → ∀ l, i.mentions l → ((reach base mem H).locOf l).isSome
  placed : ∀ i, .inst i ∈ H → isDirect i = true → ∀ l, i.mentions l → .bind_label l ∈ H ∨ .inst (.Label l) ∈ H

theorem mem_placed {l : DestLabel} (h : l ∈ H.filterMap placedHere) : .bind_label l ∈ H ∨ .inst (.Label l) ∈ H := by
  obtain ⟨op, h1, h2⟩ := List.mem_filterMap.1 h
  unfold placedHere at h2
  split at h2
  · cases h2; exact .inl h1
  · cases h2; exact .inr h1
  · cases h2

theorem tried (h : trial base mem H = true) : Tried base mem H := by
  rw [trial] at h
  split at h
  · rename_i s e
    have w := went e
    have er : reach base mem H = s := runCaught_of_ok w.run
    simp only [Bool.and_eq_true, List.all_eq_true] at h
    obtain ⟨h1, h2⟩ := h
    have hs : ∀ i, .inst i ∈ H → acceptedB i = true ∧ meaningfulB i = true := fun i hi => by
      have := w.sensible _ hi
      simpa [sensibleB] using this
    refine ⟨by rw [er]; exact w.run, w.tame, fun i hi => ?_, fun i hi => meaningfulB_sound (hs i hi).2, w.once (hinv_new base mem), ?_,
      fun i hi l hl => ?_, fun i hi hd l hl => ?_⟩
    · have := (hs i hi).1
      simp only [acceptedB] at this
      split at this
      · exact ⟨_, by assumption⟩
      · cases this
    · rw [endsWithFinalize] at h1
      split at h1
      · rename_i e
        rw [List.getLast?_eq_getElem?] at e
        exact ⟨e, Nat.lt_of_le_of_lt (Nat.zero_le _) (List.getElem?_eq_some_iff.1 e).1⟩
      · cases h1
    · have := h2 _ hi
      simp only [settledB, Bool.and_eq_true, List.all_eq_true] at this
      rw [er, ← boundB_eq]
      exact this.1 l hl
    · have := h2 _ hi
      simp only [settledB, Bool.and_eq_true, hd, Bool.not_true, Bool.false_or, List.all_eq_true] at this
      exact mem_placed (List.contains_iff_mem.1 (this.2 l hl))
  · cases h

theorem binds_bindOf {op : Op} {l} (h : bindOf op = some l) : op.binds l := by
  unfold bindOf at h
  split at h
  · cases h; rfl
  · cases h; rfl
  · cases h; rfl
  · cases h

theorem pending_of {s : JitMemory} {l} (h : waitsB s l = true) : Pending s l := by
  simp only [waitsB, List.any_eq_true, beq_iff_eq, List.mem_append] at h
  obtain ⟨⟨d, l'⟩, h, rfl⟩ := h
  rcases h with h | h
  · exact ⟨0, d, h⟩
  · exact ⟨1, d, h⟩

theorem meaningfulB_complete {i : Inst Val Nat} (h : Meaningful i) : meaningfulB i = true := by
  rcases h with h | ⟨l, rfl⟩ | ⟨v, rfl⟩ | ⟨v, rfl⟩
  · obtain ⟨I, hI⟩ := valid_meaning h (fun _ => 0)
    rw [meaningfulB, hI]; rfl
  all_goals rfl

theorem acceptedB_complete {i : Inst Val Nat} (h : Accepted i) : acceptedB i = true := by
  obtain ⟨m, hm⟩ := h
  rw [acceptedB, hm]

theorem fresh_of {s : JitMemory} {op : Op} (hb : 0 < base) (hi : Inv base s) (ho : ∀ l, op.binds l → (∀ a, ¬ HasAddress s l a) ∧ ¬ Pending s l) :
    freshB s op = true := by
  rw [freshB]
  split
  · rename_i l e
    obtain ⟨h2, h3⟩ := ho l (binds_bindOf e)
    rw [boundB_eq, Bool.and_eq_true, Bool.not_eq_true', Bool.not_eq_true', Bool.eq_false_iff, Bool.eq_false_iff]
    refine ⟨fun h4 => ?_, fun h4 => h3 (pending_of h4)⟩
    obtain ⟨⟨p, c⟩, h5⟩ := Option.isSome_iff_exists.1 h4
    exact h2 _ (hasAddress_of_loc hi hb h5)
  · rfl

theorem trialFrom_complete {s s' : JitMemory} (hb : 0 < base) (hi : HInv base s) (ht : ∀ op ∈ H, tame op = true)
    (hs : ∀ op ∈ H, sensibleB op = true) (ho : ∀ l, BindsOnce l s H) (hr : runOps H s = .ok () s') : trialFrom s H = some s' := by
  have hf := keepsLabels_runOps hr
  induction H generalizing s with
  | nil => cases hr; rfl
  | cons op ops ih =>
    have h1 : freshB s op = true := fresh_of hb hi.inv fun l => (ho l).1
    rw [trialFrom, ht op (by simp), hs op (by simp), h1, if_pos (by rfl)]
    simp only [runOps] at hr
    obtain ⟨_, s1, h2, h3⟩ := bind_ok hr
    rw [h2]
    have hi' := hinv_op hi (tame_raw (ht op (by simp)))
    have hf' := hf.2
    rw [h2] at hi' hf'
    exact ih hi' (fun o h => ht o (by simp [h])) (fun o h => hs o (by simp [h])) (fun l => by
      have := (ho l).2
      rw [h2] at this
      exact this) h3 hf'

theorem placed_mem {l : DestLabel} (h : .bind_label l ∈ H ∨ .inst (.Label l) ∈ H) : l ∈ H.filterMap placedHere :=
  List.mem_filterMap.2 (h.elim (fun h => ⟨_, h, rfl⟩) (fun h => ⟨_, h, rfl⟩))

theorem locOf_of_hasAddress {s : JitMemory} {l a} (h : HasAddress s l a) : (s.locOf l).isSome := by
  have h1 := h.2
  rw [get_label_u64] at h1
  obtain ⟨x, t, h2, -⟩ := bind_ok h1
  rw [← boundB_eq, boundB, h2]

theorem trial_complete (hb : 0 < base) (h : Passes base mem H) : trial base mem H = true := by
  obtain ⟨s, hr⟩ := h.run
  have er : reach base mem H = s := runCaught_of_ok hr
  rw [trial, trialFrom_complete hb (hinv_new base mem) h.tame (fun op hop => ?_) h.once hr]
  · simp only [Bool.and_eq_true, List.all_eq_true, endsWithFinalize, h.last, true_and]
    intro op hop
    unfold settledB
    split
    · rename_i i
      simp only [Bool.and_eq_true, List.all_eq_true, Bool.or_eq_true, Bool.not_eq_true']
      refine ⟨fun l hl => ?_, ?_⟩
      · rw [boundB_eq, ← er]
        obtain ⟨a, ha⟩ := h.bound i hop l hl
        exact locOf_of_hasAddress ha
      · cases hd : isDirect i with
        | false => exact .inl rfl
        | true => exact .inr fun l hl => List.contains_iff_mem.2 (placed_mem (h.placed i hop hd l hl))
    · rfl
  · unfold sensibleB
    split
    · rename_i i
      rw [acceptedB_complete (h.accepted i hop), meaningfulB_complete (h.meaningful i hop)]; rfl
    · rfl

theorem Tried.passes (hA : Alloc base) (t : Tried base mem H) : Passes base mem H := by
  refine ⟨⟨_, t.run⟩, t.tame, t.accepted, t.meaningful, t.once, ?_, fun i hi l hl => ?_, t.placed⟩
  · rw [List.getLast?_eq_getElem?]; exact t.last.1
  · obtain ⟨⟨p, c⟩, h⟩ := Option.isSome_iff_exists.1 (t.bound i hi l hl)
    exact ⟨_, hasAddress_of_loc (inv_reach base mem H) hA.pos h⟩

theorem simple_passes {pre is} (hw : WellFormed pre is) (hA : Alloc base) (mem)
    (hd : ∀ i ∈ is, isDirect i = true → ∀ l, i.mentions l → .Label l ∈ is) : Passes base mem (simple pre is) := by
  have hm : ∀ {i}, .inst i ∈ simple pre is → i ∈ is := by
    intro i hi
    simp only [simple, List.mem_append, List.mem_map, List.mem_singleton] at hi
    rcases hi with ⟨c, _, h⟩ | ⟨j, hj, h⟩ | h
    · cases h
    · cases h; exact hj
    · cases h
  refine ⟨simple_runs hw base mem, fun op hop => ?_, fun i hi => hw.accepted i (hm hi), fun i hi => hw.meaningful i (hm hi),
    simple_once hw base mem, ?_, fun i hi l hl => simple_bound hw hA mem (hm hi) hl, fun i hi h l hl => .inr ?_⟩
  · simp only [simple, List.mem_append, List.mem_map, List.mem_singleton] at hop
    rcases hop with ⟨c, _, rfl⟩ | ⟨j, hj, rfl⟩ | rfl <;> rfl
  · simp [simple]
  · have := hd i (hm hi) h l hl
    simp [simple, this]

theorem Tried.raw (t : Tried base mem H) : NoRaw H := fun op hop => tame_raw (t.tame op hop)
theorem Tried.noPanic (t : Tried base mem H) : KeepsLabels (JitMemory.new base mem) H := keepsLabels_runOps t.run

theorem Tried.at (t : Tried base mem H) {n : Nat} {op : Op} (hn : H[n]? = some op) :
    ∃ s', op.run (reach base mem (H.take n)) = .ok () s' ∧ reach base mem (H.take (n + 1)) = s' := by
  have hr := t.run
  have e := split_at hn
  have hr' : runOps (H.take n ++ ([op] ++ H.drop (n + 1))) (JitMemory.new base mem) = .ok () (reach base mem H) := by
    rw [← List.append_assoc, ← e]; exact hr
  obtain ⟨s1, h1, h2⟩ := runOps_append.1 hr'
  obtain ⟨s2, h3, -⟩ := runOps_append.1 h2
  rw [show reach base mem (H.take n) = s1 from runCaught_of_ok h1]
  have h4 : op.run s1 = .ok () s2 := by
    simp only [runOps] at h3
    obtain ⟨_, s3, h5, h6⟩ := bind_ok h3
    cases h6
    exact h5
  refine ⟨s2, h4, ?_⟩
  rw [take_at hn]
  simp only [reach, runCaught_append]
  rw [runCaught_of_ok h1, runCaught_of_ok h3]

theorem Tried.runs (t : Tried base mem H) {n : Nat} {i : Inst Val Nat} (hn : H[n]? = some (.inst i)) :
    ∃ s', Runs i (reach base mem (H.take n)) s' := by
  obtain ⟨m, hm⟩ := t.accepted i (List.mem_of_getElem? hn)
  obtain ⟨s', h1, -⟩ := t.at hn
  simp only [Op.run, hm] at h1
  exact ⟨s', m, hm, h1⟩

theorem Tried.ready (t : Tried base mem H) (hA : Alloc base) {n : Nat} {i : Inst Val Nat} (hn : H[n]? = some (.inst i)) :
    Ready base mem H encoded n i := by
  have hi := List.mem_of_getElem? hn
  obtain ⟨h1, h2⟩ := t.last
  have hlt : n < H.length - 1 := by
    obtain ⟨h3, -⟩ := List.getElem?_eq_some_iff.1 hn
    rcases Nat.lt_or_ge n (H.length - 1) with h | h
    · exact h
    · have : n = H.length - 1 := by omega
      subst this
      rw [h1] at hn
      cases hn
  refine ⟨t.runs hn, fun _ => rfl, sparesRange_tame fun op hop => t.tame op (List.mem_of_mem_drop hop), fun l _ => t.once l,
    H.length - 1, hlt, finishes_at (noFinalizePanic_runOps t.run) h1, fun l hl => ?_⟩
  rw [List.take_of_length_le (by omega)]
  obtain ⟨⟨p, c⟩, h⟩ := Option.isSome_iff_exists.1 (t.bound i hi l hl)
  exact ⟨_, hasAddress_of_loc (inv_reach base mem H) hA.pos h⟩

theorem Tried.binds (t : Tried base mem H) {n : Nat} {l : DestLabel} (hn : H[n]? = some (.bind_label l) ∨ H[n]? = some (.inst (.Label l))) :
    Binds base mem H n l := by
  refine ⟨hn.symm, ?_⟩
  have h : ∃ s', bind_label l (reach base mem (H.take n)) = .ok () s' := by
    rcases hn with hn | hn
    · obtain ⟨s', h, -⟩ := t.at hn; exact ⟨s', h⟩
    · obtain ⟨s', h, -⟩ := t.at hn; exact ⟨s', h⟩
  obtain ⟨s', h⟩ := h
  rcases Nat.lt_or_ge l (reach base mem (H.take n)).labels.length with h1 | h1
  · exact h1
  · simp only [bind_label, M.bind_def, JitMemory.cur, MemPage.counterOf, modifyLabel_none h1] at h
    cases h

theorem Tried.placedAt (t : Tried base mem H) {i : Inst Val Nat} (hi : .inst i ∈ H) {l} (hl : i.mentions l) (hd : isDirect i = true) :
    ∃ m, Binds base mem H m l := by
  rcases t.placed i hi hd l hl with h | h
  · obtain ⟨m, hm⟩ := List.mem_iff_getElem?.1 h
    exact ⟨m, t.binds (.inl hm)⟩
  · obtain ⟨m, hm⟩ := List.mem_iff_getElem?.1 h
    exact ⟨m, t.binds (.inr hm)⟩

/-! ### Places -/

theorem place_lt_64 (hA : Alloc base) (mem H) (n : Nat) : Spec.place base mem H n < 2 ^ 64 := by
  have hi := inv_reach base mem (H.take n)
  rw [Spec.place, here_eq hi]
  have h1 : cursor (reach base mem (H.take n)) (reach base mem (H.take n)).page ≤ PAGE_SIZE := hi.counter _
  have := hA.user
  rcases page_lt_two hi.page with g | g <;> rw [g] at h1 ⊢ <;> rw [PAGE_SIZE_eq] at * <;> omega

theorem placeW_eq (hA : Alloc base) {n m : Nat} (h : placeW base mem H n = placeW base mem H m) :
    Spec.place base mem H n = Spec.place base mem H m := ofNat_inj (place_lt_64 hA mem H n) (place_lt_64 hA mem H m) h

theorem Tried.valid (t : Tried base mem H) {n : Nat} {i : Inst Val Nat} (hn : H[n]? = some (.inst i)) (hl : placedLabel i = none)
    (hd : isData i = false) : Valid i := by
  rcases t.meaningful i (List.mem_of_getElem? hn) with h | ⟨l, rfl⟩ | ⟨v, rfl⟩ | ⟨v, rfl⟩
  · exact h
  · cases hl
  · cases hd
  · cases hd

/-- Statements have code. -/
theorem Tried.strict (t : Tried base mem H) (hA : Alloc base) {n : Nat} {i : Inst Val Nat} (hn : H[n]? = some (.inst i))
    (hl : placedLabel i = none) (hd : isData i = false) : Spec.place base mem H n < Spec.place base mem H (n + 1) := by
  obtain ⟨I, hI⟩ := encoded_some (t.valid hn hl hd) (dist (labelAddr (reach base mem H)) (Spec.place base mem H (n + 1)))
  have h := decode_at hA t.raw t.noPanic hn (t.ready hA hn) hI []
  rcases Nat.lt_or_ge (Spec.place base mem H n) (Spec.place base mem H (n + 1)) with hlt | hge
  · exact hlt
  · rw [Nat.sub_eq_zero_of_le hge] at h
    cases h

theorem Tried.page (t : Tried base mem H) {n : Nat} {i : Inst Val Nat} (hn : H[n]? = some (.inst i)) :
    (reach base mem (H.take (n + 1))).page = (reach base mem (H.take n)).page := by
  obtain ⟨s', h⟩ := t.runs hn
  obtain ⟨its, -, hr⟩ := runs_items h
  rw [runs_reach hn h]
  exact hr.page

theorem keepsLabels_take {s} (h : KeepsLabels s H) (n : Nat) : KeepsLabels s (H.take n) := by
  rw [← List.take_append_drop n H] at h
  exact (keepsLabels_append.1 h).1

theorem Tried.mono (t : Tried base mem H) {n m : Nat} (h : n ≤ m) (p) :
    cursor (reach base mem (H.take n)) p ≤ cursor (reach base mem (H.take m)) p := by
  have e : H.take m = H.take n ++ (H.take m).drop n := by
    have := (List.take_append_drop n (H.take m)).symm
    rwa [List.take_take, Nat.min_eq_left h] at this
  have hr : NoRaw (H.take m) := fun op hop => t.raw op (List.mem_of_mem_take hop)
  have hf := keepsLabels_take t.noPanic m
  rw [e] at hr hf
  obtain ⟨hr1, hr2⟩ := noRaw_append.1 hr
  obtain ⟨hf1, hf2⟩ := keepsLabels_append.1 hf
  rw [e, reach, reach, runCaught_append]
  exact cursor_caught (hinv_reach (base := base) (mem := mem) hr1) hr2 hf2 p

/-- Two statements are not at the same place. -/
theorem Tried.apart (t : Tried base mem H) (hA : Alloc base) {n m : Nat} {i j : Inst Val Nat} (hn : H[n]? = some (.inst i))
    (hm : H[m]? = some (.inst j)) (hl : placedLabel i = none) (hd : isData i = false) (hl' : placedLabel j = none) (hd' : isData j = false)
    (h : n < m) : Spec.place base mem H n ≠ Spec.place base mem H m := by
  intro e
  have h1 := t.strict hA hn hl hd
  have h2 := t.strict hA hm hl' hd'
  have hp1 := t.page hn
  have hp2 := t.page hm
  have i0 := inv_reach base mem (H.take n)
  have i1 := inv_reach base mem (H.take (n + 1))
  have i2 := inv_reach base mem (H.take m)
  have i3 := inv_reach base mem (H.take (m + 1))
  have c1 := i1.counter (reach base mem (H.take n)).page
  have c3 := i3.counter (reach base mem (H.take m)).page
  simp only [Spec.place, here_eq i0, here_eq i1, here_eq i2, here_eq i3, hp1, hp2] at h1 h2 e
  have hmono := t.mono (show n + 1 ≤ m from h) (reach base mem (H.take n)).page
  have g0 := i0.page
  have g2 := i2.page
  by_cases hpp : (reach base mem (H.take n)).page = (reach base mem (H.take m)).page
  · rw [hpp] at h1 e hmono
    omega
  · simp only [Spec.cursor] at *
    rcases page_lt_two g0 with g0 | g0 <;> rcases page_lt_two g2 with g2 | g2 <;> simp only [g0, g2] at * <;>
      first | exact absurd rfl hpp | (rw [PAGE_SIZE_eq] at *; omega)

/-! ### The other places of the memory -/

section
variable {b1 b2 : Nat} {m1 m2 : Nat → Monoasm.Byte}

theorem shift_boundB {D s1 s2} (h : Shift D b1 b2 s1 s2) (l) : boundB s2 l = boundB s1 l := by
  rw [boundB_eq, boundB_eq, JitMemory.locOf, JitMemory.locOf, h.labels]

theorem shift_waitsB {D s1 s2} (h : Shift D b1 b2 s1 s2) (l) : waitsB s2 l = waitsB s1 l := by
  rw [waitsB, waitsB, h.pages, h.pages]

theorem shift_freshB {D s1 s2} (h : Shift D b1 b2 s1 s2) (op) : freshB s2 op = freshB s1 op := by
  rw [freshB, freshB]
  split
  · rw [shift_boundB h, shift_waitsB h]
  · rfl

theorem trialFrom_moved (a1 : Alloc b1) (a2 : Alloc b2) {s1 s2 t1} (hi : Inv b1 s1) (w : AbsInv (fun _ _ => True) s1)
    (hs : Shift (fun _ _ _ => True) b1 b2 s1 s2) (h : trialFrom s1 H = some t1) :
    ∃ t2, trialFrom s2 H = some t2 ∧ Shift (fun _ _ _ => True) b1 b2 t1 t2 := by
  induction H generalizing s1 s2 with
  | nil => cases h; exact ⟨s2, rfl, hs⟩
  | cons op ops ih =>
    rw [trialFrom] at h ⊢
    split at h
    · rename_i hc
      rw [shift_freshB hs, if_pos hc]
      simp only [Bool.and_eq_true] at hc
      split at h
      · rename_i u s1' e
        have r := moved_op (D := fun _ _ _ => True) (P := fun _ _ => True) (op := op) (fun _ _ => trivial) a1.pos a2.pos (fun _ _ _ _ _ _ _ => trivial)
          hi w (fun _ _ _ _ => trivial) (by rintro a l rfl; cases hc.1.1) hs
        rw [tame_move hc.1.1, e] at r
        have hi' := inv_op hi op
        have w' := absInv_op (P := fun _ _ => True) (op := op) hi a1.pos w (fun _ _ _ _ => trivial)
        rw [e] at hi' w'
        generalize op.run s2 = r2 at r ⊢
        cases r with
        | ok _ hs' => exact ih hi' w' hs' h
      · cases h
    · cases h

theorem trial_moved (a1 : Alloc b1) (a2 : Alloc b2) (h : trial b1 m1 H = true) : trial b2 m2 H = true := by
  rw [trial] at h ⊢
  split at h
  · rename_i t1 e
    obtain ⟨t2, e2, hs⟩ := trialFrom_moved a1 a2 (inv_new b1 m1) (absInv_new _ b1 m1) (shift_new m1 m2 fun _ => trivial) e
    rw [e2]
    simp only [Bool.and_eq_true, List.all_eq_true] at h ⊢
    refine ⟨h.1, fun op hop => ?_⟩
    have := h.2 op hop
    unfold settledB at this ⊢
    split
    · simpa only [shift_boundB hs] using this
    · rfl
  · cases h

end

end Monoasm
