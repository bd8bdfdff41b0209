import Verif.Proofs.Live
import Verif.Proofs.Order
import Verif.Proofs.Exec
import Verif.Props.C51
import Verif.Spec.Simple
/-
  Helper lemmas for C52.
-/

namespace Monoasm
open Spec JitMemory

variable {base : Nat} {mem : Nat → Monoasm.Byte}

/-- State after the label-creating calls. -/
structure Created (pre : List NewCall) (s s' : JitMemory) : Prop where
  page : s'.page = s.page
  len : s'.labels.length = s.labels.length + pre.length
  counter : ∀ p, (s'.pages p).counter = (s.pages p).counter
  consts : (s'.pages s.page).constants = (s.pages s.page).constants ++ constsFrom s.labels.length pre
  data : (s'.pages s.page).data = (s.pages s.page).data ++ dataFrom s.labels.length pre
  other : ∀ p, p ≠ s.page → (s'.pages p).constants = (s.pages p).constants ∧ (s'.pages p).data = (s.pages p).data

theorem created (pre : List NewCall) (s : JitMemory) : ∃ s', runOps (pre.map .new) s = .ok () s' ∧ Created pre s s' := by
  induction pre generalizing s with
  | nil =>
    exact ⟨s, rfl, rfl, rfl, fun _ => rfl, by simp [constsFrom], by simp [dataFrom], fun _ _ => ⟨rfl, rfl⟩⟩
  | cons c cs ih =>
    obtain ⟨s', h1, h2⟩ := ih (newState c s)
    have hl : (newState c s).labels.length = s.labels.length + 1 := by simp [newState]
    have hp : (newState c s).page = s.page := rfl
    refine ⟨s', ?_, h2.page, ?_, ?_, ?_, ?_, ?_⟩
    · show (Op.run (.new c) >>= fun _ => runOps (cs.map .new)) s = _
      rw [ok_bind (show (Op.run (.new c)) s = .ok () (newState c s) by simp only [Op.run]; rw [ok_bind (newCall_run c s)]; rfl)]
      exact h1
    · rw [h2.len, hl, List.length_cons]; omega
    · intro p
      rw [h2.counter]
      by_cases h : p = s.page <;> simp [newState, h]
    · have := h2.consts
      rw [hl, hp] at this
      rw [this]
      simp [newState, constsFrom]
    · have := h2.data
      rw [hl, hp] at this
      rw [this]
      simp [newState, dataFrom]
    · intro p h
      rw [(h2.other p (by rw [hp]; exact h)).1, (h2.other p (by rw [hp]; exact h)).2]
      simp [newState, h]

theorem runOps_insts {is : List (Inst Val Nat)} {s s' : JitMemory} (h : RunsAll is s s') : runOps (is.map .inst) s = .ok () s' := by
  induction is generalizing s with
  | nil => rw [runsAll_nil] at h; subst h; rfl
  | cons i is ih =>
    obtain ⟨s1, ⟨m, h0, h1⟩, h2⟩ := runsAll_cons.1 h
    show (Op.run (.inst i) >>= fun _ => runOps (is.map .inst)) s = _
    rw [ok_bind (show (Op.run (.inst i)) s = .ok () s1 by simp only [Op.run, h0]; exact h1)]
    exact ih h2

theorem endOf_mono {a b : Nat} (h : a ≤ b) (xs) : endOf a xs ≤ endOf b xs := by
  induction xs generalizing a b with
  | nil => exact h
  | cons x xs ih =>
    refine ih (Nat.add_le_add_right ?_ _)
    exact Nat.mul_le_mul_right _ (Nat.div_le_div_right (by omega))

theorem constsFrom_label {k pre d l} (h : (d, l) ∈ constsFrom k pre) : ∃ j c, pre[j]? = some c ∧ l = k + j ∧ c.const = some d := by
  induction pre generalizing k with
  | nil => simp [constsFrom] at h
  | cons c cs ih =>
    simp only [constsFrom, List.mem_append] at h
    rcases h with h | h
    · cases hc : c.const with
      | none => simp [hc] at h
      | some d' => simp [hc] at h; exact ⟨0, c, rfl, by rw [h.2]; rfl, by rw [hc, h.1]⟩
    · obtain ⟨j, c', h1, h2, h3⟩ := ih h
      exact ⟨j + 1, c', by simpa using h1, by rw [h2, Nat.add_right_comm]; rfl, h3⟩

theorem dataFrom_label {k pre d l} (h : (d, l) ∈ dataFrom k pre) : ∃ j c, pre[j]? = some c ∧ l = k + j ∧ c.datum = some d := by
  induction pre generalizing k with
  | nil => simp [dataFrom] at h
  | cons c cs ih =>
    simp only [dataFrom, List.mem_append] at h
    rcases h with h | h
    · cases hc : c.datum with
      | none => simp [hc] at h
      | some d' => simp [hc] at h; exact ⟨0, c, rfl, by rw [h.2]; rfl, by rw [hc, h.1]⟩
    · obtain ⟨j, c', h1, h2, h3⟩ := ih h
      exact ⟨j + 1, c', by simpa using h1, by rw [h2, Nat.add_right_comm]; rfl, h3⟩

theorem objects_from {k pre} {j : Nat} {c} (h : pre[j]? = some c) (hc : c ≠ .label) :
    ∃ d, (d, k + j) ∈ constsFrom k pre ∨ (d, k + j) ∈ dataFrom k pre := by
  induction pre generalizing k j with
  | nil => simp at h
  | cons c' cs ih =>
    cases j with
    | zero =>
      simp at h; subst h
      cases c'
      case label => exact absurd rfl hc
      case data_i64 | data_i32 | data => exact ⟨_, .inr (List.mem_append_left _ (List.mem_singleton.2 rfl))⟩
      all_goals exact ⟨_, .inl (List.mem_append_left _ (List.mem_singleton.2 rfl))⟩
    | succ j =>
      obtain ⟨d, h1⟩ := ih (k := k + 1) (j := j) (by simpa using h)
      rw [show k + 1 + j = k + (j + 1) by omega] at h1
      exact ⟨d, h1.imp (List.mem_append_right _) (List.mem_append_right _)⟩

/-- What there is before `finalize`. -/
structure Laid (pre : List NewCall) (is : List (Inst Val Nat)) (base : Nat) (mem : Nat → Monoasm.Byte) (s1 s2 : JitMemory) : Prop where
  news : runOps (pre.map .new) (JitMemory.new base mem) = .ok () s1
  made : Created pre (JitMemory.new base mem) s1
  code : RunsAll is s1 s2
  cursor : cursor s2 0 ≤ 12 * is.length
  consts : (s2.pages 0).constants = constsFrom 0 pre
  data : (s2.pages 0).data = dataFrom 0 pre
  cursors : ∀ p, p ≠ 0 → Spec.cursor s2 p = 0
  lists : ∀ p, p ≠ 0 → (s2.pages p).constants = [] ∧ (s2.pages p).data = []
  len : s2.labels.length = pre.length

theorem laid {pre is} (hw : WellFormed pre is) (base mem) : ∃ s1 s2, Laid pre is base mem s1 s2 := by
  obtain ⟨s1, h1, h2⟩ := created pre (JitMemory.new base mem)
  have hp : s1.page = 0 := h2.page
  have hlen : s1.labels.length = pre.length := by rw [h2.len]; simp [JitMemory.new]
  have hc : ∀ p, cursor s1 p = 0 := fun p => by rw [cursor, h2.counter]; rfl
  obtain ⟨s2, h3⟩ := meaningful_runsAll (s := s1) hw.meaningful hw.accepted hw.imm (fun i hi l hl => by rw [hlen]; exact hw.created i hi l hl)
    (by rw [hc, Nat.zero_add]; exact Nat.le_trans (le_endOf _ _) hw.room)
  obtain ⟨its, hr⟩ := runsAll_ran h3
  have hh := runsAll_here h3
  have hpages : ∀ p, p ≠ 0 → s2.pages p = s1.pages p := fun p h => by rw [hr.pages]; simp [hp, h]
  refine ⟨s1, s2, h1, h2, h3, ?_, ?_, ?_, fun p h => ?_, fun p h => ?_, ?_⟩
  · simp only [here, hr.page, hp, hr.contents] at hh
    have := hc 0
    simp only [cursor] at this ⊢
    omega
  · rw [hr.pages]; simp only [hp, if_true]; exact h2.consts
  · rw [hr.pages]; simp only [hp, if_true]; exact h2.data
  · rw [cursor, hpages p h]; exact hc p
  · rw [hpages p h]; exact h2.other p h
  · rw [hr.len, hlen]

theorem Laid.run {pre is s1 s2} (h : Laid pre is base mem s1 s2) :
    runOps (pre.map .new ++ is.map .inst) (JitMemory.new base mem) = .ok () s2 :=
  runOps_append.2 ⟨s1, h.news, runOps_insts h.code⟩

theorem noRaw_simple (pre is) : NoRaw (simple pre is) := by
  intro op hop l off
  simp only [simple, List.mem_append, List.mem_map, List.mem_singleton] at hop
  rcases hop with ⟨c, _, rfl⟩ | ⟨i, _, rfl⟩ | rfl <;> simp

theorem const_abs {c : NewCall} {x} (h : c.const = some (.absAddress x)) : c = .abs_address x := by
  cases c
  case abs_address l => cases h; rfl
  all_goals cases h

theorem datum_abs {c : NewCall} {x} (h : c.datum = some (.absAddress x)) : False := by
  cases c <;> simp [NewCall.datum] at h

theorem Laid.fin {pre is s1 s2} (hw : WellFormed pre is) (h : Laid pre is base mem s1 s2) : ∃ s3, finalize s2 = .ok () s3 := by
  refine (C51_clean (fun op hop => noRaw_simple pre is op ?_) h.run).2 ⟨⟨?_, ?_, ?_⟩, ?_⟩
  · simp only [simple, List.mem_append] at hop ⊢
    rcases hop with h | h
    · exact .inl h
    · exact .inr (.inl h)
  · rw [h.consts]; exact Nat.le_trans (endOf_mono h.cursor _) hw.room
  · rw [(h.lists 1 (by decide)).1, h.cursors 1 (by decide), endOf, PAGE_SIZE_eq]; omega
  · rw [h.data, (h.lists 1 (by decide)).2, List.append_nil, h.cursors 2 (by decide)]; exact hw.roomData
  · rintro x l ⟨p, hp, hq⟩
    rw [h.len]
    by_cases e : p = 0
    · subst e
      rw [h.consts, h.data] at hq
      rcases hq with hq | hq
      · obtain ⟨j, c, h1, h2, h3⟩ := constsFrom_label hq
        have := const_abs h3
        exact hw.pointers x (this ▸ List.mem_of_getElem? h1)
      · obtain ⟨j, c, h1, h2, h3⟩ := dataFrom_label hq
        exact (datum_abs h3).elim
    · rw [(h.lists p e).1, (h.lists p e).2] at hq
      simp at hq

theorem simple_runs {pre is} (hw : WellFormed pre is) (base mem) : ∃ s, runOps (simple pre is) (JitMemory.new base mem) = .ok () s := by
  obtain ⟨s1, s2, h⟩ := laid hw base mem
  obtain ⟨s3, h3⟩ := h.fin hw
  exact ⟨s3, runOps_append.2 ⟨s1, h.news, runOps_append.2 ⟨s2, runOps_insts h.code, runOps_finalize.2 h3⟩⟩⟩

theorem countNew_news (pre : List NewCall) : countNew (pre.map .new) = pre.length := by
  induction pre with
  | nil => rfl
  | cons c cs ih => simp [countNew, ih]

theorem binds_inst {i : Inst Val Nat} {l} (h : Op.binds (.inst i) l) : i = .Label l := by
  cases i <;> first | exact absurd h id | exact congrArg _ h.symm

theorem simple_once {pre is} (hw : WellFormed pre is) (base mem) (l : DestLabel) : BindsOnce l (JitMemory.new base mem) (simple pre is) := by
  obtain ⟨s, hs⟩ := simple_runs hw base mem
  by_cases h : .Label l ∈ is
  · have hl := hw.fresh l h
    obtain ⟨n, hn⟩ := List.mem_iff_getElem?.1 h
    have ep := split_at hl
    have ei := split_at hn
    have hc : countNew ((pre.take l).map Op.new) = l := by
      rw [countNew_news, List.length_take]
      obtain ⟨h, -⟩ := List.getElem?_eq_some_iff.1 hl
      exact Nat.min_eq_left (Nat.le_of_lt h)
    have e : simple pre is = (pre.take l).map .new ++ .new .label :: ((pre.drop (l + 1)).map .new ++ (is.take n).map .inst)
        ++ .inst (.Label l) :: ((is.drop (n + 1)).map .inst ++ [.finalize]) := by
      rw [simple]
      conv => lhs; rw [ep, ei]
      simp
    have := C44_once (base := base) (mem := mem) (b := .inst (.Label l)) (hc := (pre.take l).map .new)
      (hm := (pre.drop (l + 1)).map .new ++ (is.take n).map .inst) (ht := (is.drop (n + 1)).map .inst ++ [.finalize])
      (by rw [← e]; exact keepsLabels_runOps hs)
      (by intro op hop; obtain ⟨c, _, rfl⟩ := List.mem_map.1 hop; exact id)
      (by
        rw [hc]
        intro op hop
        rcases List.mem_append.1 hop with hop | hop
        · obtain ⟨c, _, rfl⟩ := List.mem_map.1 hop; exact id
        · obtain ⟨i, hi, rfl⟩ := List.mem_map.1 hop
          intro hb
          rw [binds_inst hb] at hi
          obtain ⟨m, hm⟩ := List.mem_iff_getElem?.1 hi
          rw [List.getElem?_take] at hm
          split at hm
          · have := hw.once l m n hm hn; omega
          · cases hm)
      (by
        rw [hc]
        intro op hop
        rcases List.mem_append.1 hop with hop | hop
        · obtain ⟨i, hi, rfl⟩ := List.mem_map.1 hop
          intro hb
          rw [binds_inst hb] at hi
          obtain ⟨m, hm⟩ := List.mem_iff_getElem?.1 hi
          rw [List.getElem?_drop] at hm
          have := hw.once l _ n hm hn; omega
        · rw [List.mem_singleton.1 hop]; exact id)
    rwa [hc, ← e] at this
  · refine C44_once_object fun op hop hb => ?_
    simp only [simple, List.mem_append, List.mem_map, List.mem_singleton] at hop
    rcases hop with ⟨c, _, rfl⟩ | ⟨i, hi, rfl⟩ | rfl
    · exact hb
    · exact h (binds_inst hb ▸ hi)
    · exact hb

theorem runsAll_append {a b : List (Inst Val Nat)} {s s'} : RunsAll (a ++ b) s s' ↔ ∃ t, RunsAll a s t ∧ RunsAll b t s' := by
  induction a generalizing s with
  | nil => simp [runsAll_nil]
  | cons i a ih =>
    rw [List.cons_append, runsAll_cons]
    constructor
    · rintro ⟨s1, h1, h2⟩
      obtain ⟨t, h3, h4⟩ := ih.1 h2
      exact ⟨t, runsAll_cons.2 ⟨s1, h1, h3⟩, h4⟩
    · rintro ⟨t, h1, h2⟩
      obtain ⟨s1, h3, h4⟩ := runsAll_cons.1 h1
      exact ⟨s1, h3, ih.2 ⟨t, h4, h2⟩⟩

theorem simple_at {pre : List NewCall} {is : List (Inst Val Nat)} {n i} (h : (simple pre is)[n]? = some (.inst i)) :
    ∃ j, n = pre.length + j ∧ is[j]? = some i := by
  by_cases hn : n < pre.length
  · rw [simple, List.getElem?_append_left (by simpa using hn)] at h
    simp at h
  · rw [simple, List.getElem?_append_right (by simpa using hn)] at h
    refine ⟨n - pre.length, by omega, ?_⟩
    rw [List.length_map] at h
    by_cases hj : n - pre.length < is.length
    · rw [List.getElem?_append_left (by simpa using hj)] at h
      simpa using h
    · rw [List.getElem?_append_right (by simpa using hj)] at h
      rcases Nat.eq_zero_or_pos (n - pre.length - (is.map Op.inst).length) with e | e
      · rw [e] at h; simp at h
      · rw [List.getElem?_eq_none (Nat.succ_le_of_lt e)] at h; simp at h

theorem simple_label_at {pre : List NewCall} {is : List (Inst Val Nat)} {j : Nat} {i} (h : is[j]? = some i) :
    (simple pre is)[pre.length + j]? = some (.inst i) := by
  obtain ⟨hj, -⟩ := List.getElem?_eq_some_iff.1 h
  rw [simple, List.getElem?_append_right (by simp), List.length_map, Nat.add_sub_cancel_left,
    List.getElem?_append_left (by simpa using hj)]
  simp [h]

theorem simple_length (pre : List NewCall) (is : List (Inst Val Nat)) : (simple pre is).length = pre.length + is.length + 1 := by
  simp [simple]; omega

theorem simple_take {pre : List NewCall} {is : List (Inst Val Nat)} {j : Nat} (h : j ≤ is.length) :
    (simple pre is).take (pre.length + j) = pre.map .new ++ (is.take j).map .inst := by
  rw [simple, List.take_append, List.length_map, Nat.add_sub_cancel_left, List.take_append_of_le_length (by simpa using h),
    List.take_of_length_le (by simp), List.map_take]

theorem Laid.at {pre is s1 s2} (h : Laid pre is base mem s1 s2) {j : Nat} {i} (hj : is[j]? = some i) :
    ∃ t, RunsAll (is.take j) s1 t ∧ reach base mem ((simple pre is).take (pre.length + j)) = t ∧ ∃ t', Runs i t t' := by
  obtain ⟨hlt, -⟩ := List.getElem?_eq_some_iff.1 hj
  have hc := h.code
  rw [split_at hj, List.append_assoc] at hc
  obtain ⟨t, h1, h2⟩ := runsAll_append.1 hc
  obtain ⟨t', h3, -⟩ := runsAll_cons.1 h2
  refine ⟨t, h1, ?_, t', h3⟩
  rw [simple_take (Nat.le_of_lt hlt), reach, runCaught_append, runCaught_of_ok h.news]
  exact runsAll_caught h1

/-- The addresses at the end. -/
theorem simple_bound {pre is} (hw : WellFormed pre is) (hA : Alloc base) (mem) {i} (hi : i ∈ is) {l} (hm : i.mentions l) :
    ∃ a, HasAddress (reach base mem (simple pre is)) l a := by
  obtain ⟨s1, s2, h⟩ := laid hw base mem
  obtain ⟨s3, h3⟩ := h.fin hw
  obtain ⟨s, hs⟩ := simple_runs hw base mem
  have hf := keepsLabels_runOps hs
  have e3 : reach base mem (simple pre is) = s3 := runCaught_of_ok
    (runOps_append.2 ⟨s1, h.news, runOps_append.2 ⟨s2, runOps_insts h.code, runOps_finalize.2 h3⟩⟩)
  rcases hw.defined i hi l hm with ⟨c, hc, hne⟩ | hl
  · obtain ⟨d, hd⟩ := objects_from (k := 0) hc hne
    rw [Nat.zero_add] at hd
    have hr2 : NoRaw (pre.map .new ++ is.map .inst) := fun op hop => noRaw_simple pre is op (by
      simp only [simple, List.mem_append] at hop ⊢
      rcases hop with h | h
      · exact .inl h
      · exact .inr (.inl h))
    have hv : HInv base s2 := by
      have := hinv_reach (base := base) (mem := mem) hr2
      rwa [reach, runCaught_of_ok h.run] at this
    have hF := finalize_ok hv.inv hv.slots hv.nodup h3
    have ho : ∃ p, (p, d, l) ∈ objects s2 := by
      rcases hd with hd | hd
      · exact ⟨0, by simp [objects, h.consts, hd]⟩
      · exact ⟨DATA_PAGE, by simp [objects, h.data, hd]⟩
    obtain ⟨p, ho⟩ := ho
    obtain ⟨pos, hloc, -⟩ := hF.placed p d l ho
    rw [e3]
    exact ⟨_, hasAddress_of_loc hF.inv hA.pos hloc⟩
  · obtain ⟨j, hj⟩ := List.mem_iff_getElem?.1 hl
    refine ⟨_, binds_address (m := pre.length + j) hA (noRaw_simple pre is) hf (simple_once hw base mem l)
      ⟨.inl (simple_label_at hj), ?_⟩⟩
    obtain ⟨t, h1, e, -⟩ := h.at hj
    obtain ⟨its, hr⟩ := runsAll_ran h1
    rw [e, hr.len, h.made.len]
    have := hw.created _ hl l (by simp [Inst.mentions, Inst.labels])
    simpa [JitMemory.new] using this

theorem mem_constsFrom {k pre} {j : Nat} {c d} (h : pre[j]? = some c) (hc : c.const = some d) : (d, k + j) ∈ constsFrom k pre := by
  induction pre generalizing k j with
  | nil => simp at h
  | cons c' cs ih =>
    simp only [constsFrom, List.mem_append]
    cases j with
    | zero => simp only [List.getElem?_cons_zero, Option.some.injEq] at h; subst h; left; simp [hc]
    | succ j => right; have := ih (k := k + 1) h; rwa [Nat.add_assoc, Nat.add_comm 1] at this

theorem mem_dataFrom {k pre} {j : Nat} {c d} (h : pre[j]? = some c) (hc : c.datum = some d) : (d, k + j) ∈ dataFrom k pre := by
  induction pre generalizing k j with
  | nil => simp at h
  | cons c' cs ih =>
    simp only [dataFrom, List.mem_append]
    cases j with
    | zero => simp only [List.getElem?_cons_zero, Option.some.injEq] at h; subst h; left; simp [hc]
    | succ j => right; have := ih (k := k + 1) h; rwa [Nat.add_assoc, Nat.add_comm 1] at this

/-- The last call of a simple program. -/
theorem simple_last {pre is} (hw : WellFormed pre is) (base mem) :
    ∃ s2, HInv base s2 ∧ finalize s2 = .ok () (reach base mem (simple pre is))
      ∧ (∀ j c d, pre[j]? = some c → c.const = some d → (d, j) ∈ (s2.pages 0).constants)
      ∧ (∀ j c d, pre[j]? = some c → c.datum = some d → (d, j) ∈ (s2.pages 0).data) := by
  obtain ⟨s1, s2, h⟩ := laid hw base mem
  obtain ⟨s3, h3⟩ := h.fin hw
  have e3 : reach base mem (simple pre is) = s3 := runCaught_of_ok
    (runOps_append.2 ⟨s1, h.news, runOps_append.2 ⟨s2, runOps_insts h.code, runOps_finalize.2 h3⟩⟩)
  have hr2 : NoRaw (pre.map .new ++ is.map .inst) := fun op hop => noRaw_simple pre is op (by
    simp only [simple, List.mem_append] at hop ⊢
    rcases hop with h | h
    · exact .inl h
    · exact .inr (.inl h))
  have hv : HInv base s2 := by
    have := hinv_reach (base := base) (mem := mem) hr2
    rwa [reach, runCaught_of_ok h.run] at this
  refine ⟨s2, hv, by rw [e3, h3], fun j c d h1 h2 => ?_, fun j c d h1 h2 => ?_⟩
  · have := mem_constsFrom (k := 0) h1 h2; rw [Nat.zero_add] at this; rw [h.consts]; exact this
  · have := mem_dataFrom (k := 0) h1 h2; rw [Nat.zero_add] at this; rw [h.data]; exact this

theorem overwrites_simple {s : JitMemory} {op : Op} {a} (h : (∃ i, op = .inst i) ∨ op = .finalize) : ¬ Overwrites s op a := by
  rcases h with ⟨i, rfl⟩ | rfl <;> exact id

theorem sparesRange_of {a n s h} (hh : ∀ op ∈ h, (∃ i, op = Op.inst i) ∨ op = .finalize) : SparesRange a n s h := by
  induction h generalizing s with
  | nil => trivial
  | cons op ops ih =>
    exact ⟨fun x _ _ => overwrites_simple (hh op (by simp)), ih fun o ho => hh o (by simp [ho])⟩

theorem simple_ready {pre is} (hw : WellFormed pre is) (hA : Alloc base) (mem) {n i} (hn : (simple pre is)[n]? = some (.inst i)) :
    Ready base mem (simple pre is) encoded n i := by
  obtain ⟨s1, s2, h⟩ := laid hw base mem
  obtain ⟨j, rfl, hj⟩ := simple_at hn
  have hi : i ∈ is := List.mem_of_getElem? hj
  obtain ⟨hlt, -⟩ := List.getElem?_eq_some_iff.1 hj
  obtain ⟨t, h1, e, hrun⟩ := h.at hj
  refine ⟨by rw [e]; exact hrun, fun _ => rfl, ?_, fun l _ => simple_once hw base mem l, ?_⟩
  · refine sparesRange_of fun op hop => ?_
    obtain ⟨m, hm⟩ := List.mem_iff_getElem?.1 hop
    rw [List.getElem?_drop, simple, List.getElem?_append_right (by simp; omega)] at hm
    have := List.mem_of_getElem? hm
    rcases List.mem_append.1 this with h | h
    · obtain ⟨i, -, rfl⟩ := List.mem_map.1 h; exact .inl ⟨i, rfl⟩
    · exact .inr (List.mem_singleton.1 h)
  · refine ⟨pre.length + is.length, by omega, ?_, fun l hl => ?_⟩
    · refine finishes_at (noFinalizePanic_runOps (simple_runs hw base mem).choose_spec) ?_
      rw [simple, List.getElem?_append_right (by simp), List.getElem?_append_right (by simp)]; simp
    · rw [List.take_of_length_le (by rw [simple_length]; omega)]
      exact simple_bound hw hA mem hi hl

theorem simple_binds {pre is} (hw : WellFormed pre is) (base mem) {j l : Nat} (hj : is[j]? = some (.Label l)) :
    Binds base mem (simple pre is) (pre.length + j) l := by
  obtain ⟨s1, s2, h⟩ := laid hw base mem
  refine ⟨.inl (simple_label_at hj), ?_⟩
  obtain ⟨t, h1, e, -⟩ := h.at hj
  obtain ⟨its, hr⟩ := runsAll_ran h1
  rw [e, hr.len, h.made.len]
  have := hw.created _ (List.mem_of_getElem? hj) l (by simp [Inst.mentions, Inst.labels])
  simpa [JitMemory.new] using this

theorem placedLabel_eq {i : Inst Val Nat} {l} (h : placedLabel i = some l) : i = .Label l := by
  cases i <;> first | (cases h; rfl) | cases h

theorem isData_eq {i : Inst Val Nat} (h : isData i = true) : (∃ v, i = .I64 v) ∨ ∃ v, i = .F64 v := by
  cases i <;> first | exact .inl ⟨_, rfl⟩ | exact .inr ⟨_, rfl⟩ | cases h

theorem meaningfulB_sound {i : Inst Val Nat} (h : meaningfulB i = true) : Meaningful i := by
  simp only [meaningfulB, Bool.or_eq_true] at h
  rcases h with (h | h) | h
  · obtain ⟨I, hI⟩ := Option.isSome_iff_exists.1 h
    exact .inl ⟨_, I, hI⟩
  · obtain ⟨l, hl⟩ := Option.isSome_iff_exists.1 h
    exact .inr (.inl ⟨l, placedLabel_eq hl⟩)
  · exact .inr (.inr (isData_eq h))

theorem asWrittenB_sound {i : Inst Val Nat} (h1 : Meaningful i) (h2 : asWrittenB i = true) : Ordinary i := by
  refine ⟨h1, ?_, ?_⟩
  · rintro a b m rfl
    exact List.isEmpty_iff.1 h2
  · rintro a b rfl
    cases h2

theorem mem_placedLabels {is : List (Inst Val Nat)} {l} : l ∈ placedLabels is ↔ .Label l ∈ is := by
  simp only [placedLabels, List.mem_filterMap]
  constructor
  · rintro ⟨i, hi, h⟩
    exact placedLabel_eq h ▸ hi
  · intro h
    exact ⟨_, h, rfl⟩

theorem placed_once {is : List (Inst Val Nat)} (h : (placedLabels is).Nodup) : ∀ (l n m : Nat), is[n]? = some (.Label l) → is[m]? = some (.Label l) → n = m := by
  induction is with
  | nil => intro l n m h; simp at h
  | cons i is ih =>
    have h' : (placedLabels is).Nodup := by
      simp only [placedLabels, List.filterMap_cons] at h ⊢
      split at h
      · exact h
      · exact (List.nodup_cons.1 h).2
    have hh : ∀ l, i = .Label l → .Label l ∉ is := by
      rintro l rfl hm
      simp only [placedLabels, List.filterMap_cons, placedLabel] at h
      exact (List.nodup_cons.1 h).1 (mem_placedLabels.2 hm)
    intro l n m hn hm
    cases n with
    | zero =>
      cases m with
      | zero => rfl
      | succ m =>
        simp only [List.getElem?_cons_zero, Option.some.injEq, List.getElem?_cons_succ] at hn hm
        exact absurd (List.mem_of_getElem? hm) (hh l hn)
    | succ n =>
      cases m with
      | zero =>
        simp only [List.getElem?_cons_zero, Option.some.injEq, List.getElem?_cons_succ] at hn hm
        exact absurd (List.mem_of_getElem? hn) (hh l hm)
      | succ m =>
        simp only [List.getElem?_cons_succ] at hn hm
        rw [ih h' l n m hn hm]

end Monoasm
