import Verif.Proofs.PageLog
/-
  Programs that work on several pages.
-/

set_option linter.unusedSimpArgs false

namespace Monoasm
open JitMemory Spec

section
variable {base : Nat} {s0 s : JitMemory} {vars : List Nat} {L : Page → PageLog}

theorem Rep.select (h : Rep base s0 vars L s) (p : Page) : Rep base s0 vars L { s with page := p } :=
  ⟨h.len, h.pages, h.others, h.inScope, h.mem, h.rest, h.loc, h.tgt, h.unknown⟩

/-- What `Orderly` asks of one statement. -/
structure StmtOk (n : Nat) (vars : List Nat) (L : Page → PageLog) (st : Stmt) : Prop where
  cur : st.op.onCurrent ∧ ∀ l off, st.op ≠ .save_reloc l off
  fresh : ∀ x ∈ st.assigned, n ≤ x ∧ x ∉ vars
  abs : ∀ x, st.op = .new (.abs_address x) → InScope n vars x
  binder : ∀ x, st.op.binds x → ∀ q, q < 2 → q ≠ st.page → (L q).binds x = none

/-- The labels of the statement exist. -/
def StmtScoped (n : Nat) (vars : List Nat) (st : Stmt) : Prop :=
  ∀ its, st.op.itemsOf = some its → ∀ it ∈ its, ∀ x ∈ it.names, InScope n vars x

theorem itemsOf_bind {op : Op} {its x} (h : op.itemsOf = some its) (hx : Item.bind x ∈ its) : op.binds x := by
  cases op <;> simp only [Op.itemsOf, Option.some.injEq, reduceCtorEq] at h
  case emit bs => subst h; simp at hx
  case bind_label l => subst h; simp at hx; exact hx
  case enc c => subst h; exact absurd hx (encCall_noBind c x)
  case inst i =>
    cases e : items i with
    | ok l => rw [e] at h; cases h; rw [items_bind e hx]; exact rfl
    | error l => rw [e] at h; cases h; cases hx

theorem op_forms {op : Op} (h : op.onCurrent) (hr : ∀ l off, op ≠ .save_reloc l off) :
    (∃ c, op = .cur c) ∨ (∃ c, op = .new c) ∨ ∃ its, op.itemsOf = some its := by
  cases op with
  | cur c => exact .inl ⟨c, rfl⟩
  | new c => exact .inr (.inl ⟨c, rfl⟩)
  | emit | bind_label | enc => exact .inr (.inr ⟨_, rfl⟩)
  | inst i => exact .inr (.inr (by simp only [Op.itemsOf]; split <;> exact ⟨_, rfl⟩))
  | save_reloc l off => exact absurd rfl (hr l off)
  | _ => cases h

theorem stmt_items {st : Stmt} {its} (l : PageLog) (h : st.op.itemsOf = some its) : PageLog.stmt st l = PageLog.items st.page its l := by
  obtain ⟨p, op, x⟩ := st
  cases op <;> simp only [Op.itemsOf, Option.some.injEq, reduceCtorEq] at h <;> simp only [PageLog.stmt, Op.itemsOf, h, Option.bind_some]

theorem assigned_items {st : Stmt} {its} (h : st.op.itemsOf = some its) : st.assigned = [] := by
  obtain ⟨p, op, x⟩ := st
  cases op <;> simp only [Op.itemsOf, Option.some.injEq, reduceCtorEq] at h <;> rfl

theorem Rep.stmt (h : Rep base s0 vars L s) (hi : Inv base s0) (st : Stmt) (hp : st.page < 2) (hs : s.page = st.page)
    (ok : StmtOk s0.labels.length vars L st) (sc : StmtScoped s0.labels.length vars st) :
    (∃ l s', PageLog.stmt st (L st.page) = some l ∧ (st.op.rename (valueOf s0.labels.length vars)).run s = .ok () s' ∧
      Rep base s0 (vars ++ st.assigned) (setLog L st.page l) s')
    ∨ (PageLog.stmt st (L st.page) = none ∧ ∃ e s', (st.op.rename (valueOf s0.labels.length vars)).run s = .panic e s') := by
  rcases op_forms ok.cur.1 ok.cur.2 with ⟨c, e⟩ | ⟨c, e⟩ | ⟨its, e⟩
  · have h1 := h.call hi hp c
    have e1 : PageLog.stmt st (L st.page) = (L st.page).call c := by simp only [PageLog.stmt, e]
    have e2 : st.assigned = [] := by simp only [Stmt.assigned, e]
    have e3 : (st.op.rename (valueOf s0.labels.length vars)).run s = c.run st.page s := by
      rw [e, ← hs]; rfl
    rw [e1, e2, e3, List.append_nil]
    rcases h1 with ⟨l, s', k1, k2, _, k4⟩ | ⟨k1, k2⟩
    · exact .inl ⟨l, s', k1, k2, k4⟩
    · exact .inr ⟨k1, k2⟩
  · have e1 : PageLog.stmt st (L st.page) = some ((L st.page).new c st.var) := by simp only [PageLog.stmt, e]
    have e2 : st.assigned = [st.var] := by simp only [Stmt.assigned, e]
    have hf := ok.fresh st.var (by simp [e2])
    refine .inl ⟨_, _, e1, ?_, by rw [e2]; exact h.new hp hs c st.var hf.1 hf.2 (fun y hy => ok.abs y (by rw [e, hy]))⟩
    rw [e]
    simp only [Op.rename, Op.run]
    rw [ok_bind (newCall_run _ _)]; rfl
  · have h1 := h.items hi hp hs its (sc its e) (fun x hx => ok.binder x (itemsOf_bind e hx))
    rw [stmt_items _ e, assigned_items e, Op.run_items (itemsOf_rename _ e), List.append_nil]
    rcases h1 with ⟨l, s', k1, k2, _, k4⟩ | ⟨k1, k2⟩
    · exact .inl ⟨l, s', k1, k2, k4⟩
    · exact .inr ⟨k1, k2⟩

theorem Rep.stmt_panic (h : Rep base s0 vars L s) (hi : Inv base s0) (st : Stmt) (hp : st.page < 2) (hs : s.page = st.page)
    (ok : StmtOk s0.labels.length vars L st) (sc : ¬ StmtScoped s0.labels.length vars st) :
    ∃ e s', (st.op.rename (valueOf s0.labels.length vars)).run s = .panic e s' := by
  rcases op_forms ok.cur.1 ok.cur.2 with ⟨c, e⟩ | ⟨c, e⟩ | ⟨its, e⟩
  · exact absurd (fun its h => by rw [e] at h; cases h) sc
  · exact absurd (fun its h => by rw [e] at h; cases h) sc
  · rw [Op.run_items (itemsOf_rename _ e)]
    refine h.items_panic hi hp hs its (fun x hx => ok.binder x (itemsOf_bind e hx)) fun h' => sc ?_
    intro its' e'; rw [e] at e'; cases e'; exact h'

/-! ### Programs -/

theorem item_binds {p l it l'} (h : PageLog.item p l it = some l') (x) (hx : l'.binds x ≠ none) :
    l.binds x ≠ none ∨ it = .bind x := by
  cases it with
  | bind y =>
    cases h
    simp only at hx
    by_cases e : x = y
    · exact .inr (by rw [e])
    · rw [if_neg e] at hx; exact .inl hx
  | fail e => cases h
  | _ =>
    simp only [PageLog.item, PageLog.emit] at h
    split at h
    · cases h; exact .inl hx
    · cases h

theorem items_binds {p its l l'} (h : PageLog.items p its l = some l') (x) (hx : l'.binds x ≠ none) :
    l.binds x ≠ none ∨ Item.bind x ∈ its := by
  induction its generalizing l with
  | nil => cases h; exact .inl hx
  | cons it its ih =>
    rw [PageLog.items_cons, Option.bind_eq_some_iff] at h
    obtain ⟨l1, h1, h2⟩ := h
    rcases ih h2 with h3 | h3
    · rcases item_binds h1 x h3 with h4 | h4
      · exact .inl h4
      · exact .inr (by simp [h4])
    · exact .inr (List.mem_cons_of_mem _ h3)

theorem stmt_binds {st : Stmt} {l l'} (ok : st.op.onCurrent ∧ ∀ l off, st.op ≠ .save_reloc l off)
    (h : PageLog.stmt st l = some l') (x) (hx : l'.binds x ≠ none) :
    l.binds x ≠ none ∨ st.op.binds x := by
  rcases op_forms ok.1 ok.2 with ⟨c, e⟩ | ⟨c, e⟩ | ⟨its, e⟩
  · simp only [PageLog.stmt, e] at h
    cases c <;> simp only [PageLog.call, PageLog.align, PageLog.emit] at h
    case align_page | align16 | align8 | align4 => cases h; exact .inl hx
    all_goals
      split at h
      · cases h; exact .inl hx
      · cases h
  · simp only [PageLog.stmt, e] at h
    cases h; exact .inl hx
  · rw [stmt_items _ e] at h
    exact (items_binds h x hx).imp id (itemsOf_bind e)

/-- What `Orderly` asks of the rest of a program. -/
structure ProgOk (n : Nat) (vars : List Nat) (L : Page → PageLog) (T : List Stmt) : Prop where
  cur : ∀ st ∈ T, st.op.onCurrent ∧ ∀ l off, st.op ≠ .save_reloc l off
  once : (vars ++ assigned T).Nodup
  fresh : ∀ x ∈ assigned T, n ≤ x
  abs : ∀ a st b x, T = a ++ st :: b → st.op = .new (.abs_address x) → InScope n (vars ++ assigned a) x
  binder : ∀ st ∈ T, ∀ st' ∈ T, ∀ x, st.op.binds x → st'.op.binds x → st.page = st'.page
  bound : ∀ q, q < 2 → ∀ x, (L q).binds x ≠ none → ∀ st ∈ T, st.op.binds x → st.page = q

theorem assigned_cons (st : Stmt) (T) : assigned (st :: T) = st.assigned ++ assigned T := rfl

theorem ProgOk.head {n st T} (h : ProgOk n vars L (st :: T)) : StmtOk n vars L st where
  cur := h.cur st List.mem_cons_self
  fresh x hx := by
    refine ⟨h.fresh x (by rw [assigned_cons]; exact List.mem_append_left _ hx), fun hv => ?_⟩
    have := h.once
    rw [List.nodup_append] at this
    exact this.2.2 x hv x (by rw [assigned_cons]; exact List.mem_append_left _ hx) rfl
  abs x hx := by
    have := h.abs [] st T x rfl hx
    simpa [assigned] using this
  binder x hx q hq hne := by
    rcases Option.eq_none_or_eq_some ((L q).binds x) with e | ⟨c, e⟩
    · exact e
    · exact absurd (h.bound q hq x (by rw [e]; simp) st List.mem_cons_self hx).symm hne

theorem ProgOk.tail {n st T l} (h : ProgOk n vars L (st :: T)) (hl : PageLog.stmt st (L st.page) = some l) :
    ProgOk n (vars ++ st.assigned) (setLog L st.page l) T where
  cur st' h' := h.cur st' (List.mem_cons_of_mem _ h')
  once := by have := h.once; rw [assigned_cons, ← List.append_assoc] at this; exact this
  fresh x hx := h.fresh x (by rw [assigned_cons]; exact List.mem_append_right _ hx)
  abs a st' b x e hx := by
    have := h.abs (st :: a) st' b x (by rw [e]; rfl) hx
    rw [assigned_cons, ← List.append_assoc] at this; exact this
  binder a ha b hb := h.binder a (List.mem_cons_of_mem _ ha) b (List.mem_cons_of_mem _ hb)
  bound q hq x hx st' h' hb := by
    by_cases e : q = st.page
    · subst e
      rw [setLog_same] at hx
      rcases stmt_binds (h.cur st List.mem_cons_self) hl x hx with h1 | h1
      · exact h.bound _ hq x h1 st' (List.mem_cons_of_mem _ h') hb
      · exact (h.binder st List.mem_cons_self st' (List.mem_cons_of_mem _ h') x h1 hb).symm
    · rw [setLog_ne _ _ e] at hx
      exact h.bound q hq x hx st' (List.mem_cons_of_mem _ h') hb

theorem select_ok {p : Page} (hp : p < 2) (s) : (Op.select_page p).run s = .ok () { s with page := p } := by
  simp only [Op.run, select_page]
  rw [ok_bind (s1 := s) (a := ()) (by simp [M.assert, hp])]
  rfl

theorem select_panic {p : Page} (hp : ¬ p < 2) (s) : ∃ e, (Op.select_page p).run s = .panic e s := by
  refine ⟨.assertFailed, ?_⟩
  simp only [Op.run, select_page]
  exact panic_bind (by simp [M.assert, hp])

theorem prog_filter {p : Page} {st : Stmt} {T l} :
    PageLog.prog ((st :: T).filter fun st => st.page = p) l
      = if st.page = p then (PageLog.stmt st l).bind (PageLog.prog (T.filter fun st => st.page = p))
        else PageLog.prog (T.filter fun st => st.page = p) l := by
  by_cases e : st.page = p
  · simp only [List.filter_cons, e, decide_true, if_true]; rfl
  · simp only [List.filter_cons, e, decide_false, if_false, Bool.false_eq_true]

/-- A program that runs does to each page what its part for that page does. -/
theorem Rep.prog (h : Rep base s0 vars L s) (hi : Inv base s0) {T : List Stmt} (ok : ProgOk s0.labels.length vars L T) {s'}
    (hr : runOps (calls s0.labels.length vars T) s = .ok () s') :
    ∃ L', Rep base s0 (vars ++ assigned T) L' s' ∧ (∀ st ∈ T, st.page < 2) ∧
      ∀ p, p < 2 → PageLog.prog (T.filter fun st => st.page = p) (L p) = some (L' p) := by
  induction T generalizing s vars L with
  | nil =>
    cases hr
    exact ⟨L, by rw [show assigned [] = [] from rfl, List.append_nil]; exact h, by simp, fun p _ => rfl⟩
  | cons st T ih =>
    simp only [calls, runOps] at hr
    obtain ⟨_, s1, h1, hr1⟩ := bind_ok hr
    obtain ⟨_, s2, h2, hr⟩ := bind_ok hr1
    clear hr1
    have hp : st.page < 2 := by
      by_cases hp : st.page < 2
      · exact hp
      · obtain ⟨e, k⟩ := select_panic hp s
        rw [k] at h1; cases h1
    rw [select_ok hp] at h1
    cases h1
    have hs := h.select st.page
    by_cases sc : StmtScoped s0.labels.length vars st
    · rcases hs.stmt hi st hp rfl ok.head sc with ⟨l, s3, k1, k2, k3⟩ | ⟨k1, e, s3, k2⟩
      · rw [k2] at h2; cases h2
        obtain ⟨L', r1, r2, r3⟩ := ih k3 (ok.tail k1) hr
        refine ⟨L', ?_, ?_, ?_⟩
        · rw [assigned_cons, ← List.append_assoc]; exact r1
        · intro st' h'
          rcases List.mem_cons.1 h' with rfl | h'
          · exact hp
          · exact r2 st' h'
        · intro p hp'
          have := r3 p hp'
          rw [prog_filter]
          by_cases e : st.page = p
          · subst e
            rw [if_pos rfl, k1, Option.bind_some, ← this, setLog_same]
          · rw [if_neg e, ← this, setLog_ne _ _ (Ne.symm e)]
      · rw [k2] at h2; cases h2
    · obtain ⟨e, s3, k⟩ := hs.stmt_panic hi st hp rfl ok.head sc
      rw [k] at h2; cases h2

/-- All labels exist when they are used. -/
def ProgScoped (n : Nat) : List Nat → List Stmt → Prop
  | _, [] => True
  | vars, st :: T => StmtScoped n vars st ∧ ProgScoped n (vars ++ st.assigned) T

/-- A program runs if its parts for the pages do. -/
theorem Rep.prog_runs (h : Rep base s0 vars L s) (hi : Inv base s0) {T : List Stmt} (ok : ProgOk s0.labels.length vars L T)
    (sc : ProgScoped s0.labels.length vars T) (hp : ∀ st ∈ T, st.page < 2)
    (hl : ∀ p, p < 2 → PageLog.prog (T.filter fun st => st.page = p) (L p) ≠ none) :
    ∃ s', runOps (calls s0.labels.length vars T) s = .ok () s' := by
  induction T generalizing s vars L with
  | nil => exact ⟨s, rfl⟩
  | cons st T ih =>
    have hp1 := hp st List.mem_cons_self
    have hs := h.select st.page
    rcases hs.stmt hi st hp1 rfl ok.head sc.1 with ⟨l, s3, k1, k2, k3⟩ | ⟨k1, _⟩
    · obtain ⟨s', r⟩ := ih k3 (ok.tail k1) sc.2 (fun st' h' => hp st' (List.mem_cons_of_mem _ h')) (by
        intro p hp'
        have := hl p hp'
        rw [prog_filter] at this
        by_cases e : st.page = p
        · subst e
          rw [if_pos rfl, k1, Option.bind_some] at this
          rw [setLog_same]; exact this
        · rw [if_neg e] at this
          rw [setLog_ne _ _ (Ne.symm e)]; exact this)
      refine ⟨s', ?_⟩
      simp only [calls, runOps]
      rw [ok_bind (select_ok hp1 s), ok_bind k2]
      exact r
    · have := hl st.page hp1
      rw [prog_filter, if_pos rfl, k1] at this
      exact absurd rfl this

end

/-! ### Labels of calls -/

section
variable {f g : Nat → DestLabel}

theorem MDisp.map_congr {d : MDisp V DestLabel} (h : ∀ l ∈ d.labels, f l = g l) : d.map id f = d.map id g := by
  cases d with
  | label l => exact congrArg MDisp.label (h l (List.mem_singleton.2 rfl))
  | _ => rfl
theorem IndAddr.map_congr {a : IndAddr V DestLabel} (h : ∀ l ∈ a.labels, f l = g l) : a.map id f = a.map id g := by
  simp only [IndAddr.map, MDisp.map_congr h]
theorem RmOperand.map_congr {a : RmOperand V DestLabel} (h : ∀ l ∈ a.labels, f l = g l) : a.map id f = a.map id g := by
  cases a with
  | ind a => exact congrArg RmOperand.ind (IndAddr.map_congr h)
  | _ => rfl
theorem RmiOperand.map_congr {a : RmiOperand V DestLabel} (h : ∀ l ∈ a.labels, f l = g l) : a.map id f = a.map id g := by
  cases a with
  | ind a => exact congrArg RmiOperand.ind (IndAddr.map_congr h)
  | _ => rfl
theorem XmOperand.map_congr {a : XmOperand V DestLabel} (h : ∀ l ∈ a.labels, f l = g l) : a.map id f = a.map id g := by
  cases a with
  | ind a => exact congrArg XmOperand.ind (IndAddr.map_congr h)
  | _ => rfl
theorem MovOperand.map_congr {a : MovOperand V DestLabel} (h : ∀ l ∈ a.labels, f l = g l) : a.map id f = a.map id g := by
  cases a with
  | ind a => exact congrArg MovOperand.ind (IndAddr.map_congr h)
  | _ => rfl
theorem Dest.map_congr {a : Dest V DestLabel} (h : ∀ l ∈ a.labels, f l = g l) : a.map id f = a.map id g := by
  cases a with
  | ind a => exact congrArg Dest.ind (IndAddr.map_congr h)
  | rel l => exact congrArg Dest.rel (h l (List.mem_singleton.2 rfl))
  | _ => rfl

theorem Inst.map_congr {i : Inst V DestLabel} (h : ∀ l ∈ i.labels, f l = g l) : i.map id f = i.map id g := by
  have left : ∀ {a b : List DestLabel}, (∀ l ∈ a ++ b, f l = g l) → ∀ l ∈ a, f l = g l := fun h l hl => h l (List.mem_append_left _ hl)
  have right : ∀ {a b : List DestLabel}, (∀ l ∈ a ++ b, f l = g l) → ∀ l ∈ b, f l = g l := fun h l hl => h l (List.mem_append_right _ hl)
  cases i <;> simp only [Inst.labels] at h <;> simp only [Inst.map]
  all_goals first
    | simp only [RmOperand.map_congr (left h), RmOperand.map_congr (right h)]
    | simp only [RmOperand.map_congr (left h), RmiOperand.map_congr (right h)]
    | simp only [RmiOperand.map_congr (left h), RmiOperand.map_congr (right h)]
    | simp only [XmOperand.map_congr (left h), XmOperand.map_congr (right h)]
    | simp only [MovOperand.map_congr (left h), MovOperand.map_congr (right h)]
    | simp only [RmOperand.map_congr h]
    | simp only [RmiOperand.map_congr h]
    | simp only [XmOperand.map_congr h]
    | simp only [Dest.map_congr h]
    | simp only [h _ (List.mem_singleton.2 rfl)]

theorem Disp.rename_congr {d : Disp} (h : ∀ l ∈ d.labels, f l = g l) : d.rename f = d.rename g := by
  cases d with
  | label l => exact congrArg Disp.label (h l (List.mem_singleton.2 rfl))
  | _ => rfl
theorem Rm.rename_congr {rm : Rm} (h : ∀ l ∈ rm.labels, f l = g l) : rm.rename f = rm.rename g := by
  obtain ⟨b, m⟩ := rm
  cases m with
  | reg => rfl
  | ind sc d => simp only [Rm.rename, Disp.rename_congr h]

theorem EncCall.rename_congr {c : EncCall} (h : ∀ l ∈ c.labels, f l = g l) : c.rename f = c.rename g := by
  cases c <;> simp only [EncCall.labels] at h <;> simp only [EncCall.rename]
  all_goals first
    | simp only [Rm.rename_congr h]
    | simp only [h _ (List.mem_singleton.2 rfl)]

theorem Op.rename_congr {op : Op} {its} (e : op.itemsOf = some its) (h : ∀ l ∈ op.labels, f l = g l) : op.rename f = op.rename g := by
  cases op <;> simp only [Op.itemsOf, Option.some.injEq, reduceCtorEq] at e <;> simp only [Op.labels] at h <;> simp only [Op.rename]
  case bind_label l => simp only [h _ (List.mem_singleton.2 rfl)]
  case enc c => simp only [EncCall.rename_congr h]
  case inst i => simp only [Inst.map_congr h]

theorem ren_names {its : List Item} (h : ren f its = ren g its) : ∀ it ∈ its, ∀ x ∈ it.names, f x = g x := by
  induction its with
  | nil => intro it h; cases h
  | cons it its ih =>
    rw [ren_cons, ren_cons, List.cons.injEq] at h
    intro it' h'
    rcases List.mem_cons.1 h' with rfl | h'
    · intro x hx
      have h1 := h.1
      cases it' <;> simp only [Item.names, List.mem_singleton, List.not_mem_nil] at hx
      · subst hx; simp only [Item.rename, Item.rel.injEq] at h1; exact h1.1
      · subst hx; simp only [Item.rename, Item.bind.injEq] at h1; exact h1
    · exact ih h.2 it' h'

/-- Items refer to the labels of the call. -/
theorem itemsOf_names {op : Op} {its} (e : op.itemsOf = some its) : ∀ it ∈ its, ∀ x ∈ it.names, x ∈ op.labels := by
  intro it hit x hx
  have : op.rename id = op.rename (fun l => if l ∈ op.labels then l else l + 1) :=
    Op.rename_congr e fun l hl => by simp [hl]
  have h1 := itemsOf_rename id e
  rw [this, itemsOf_rename _ e] at h1
  have := ren_names (Option.some.inj h1).symm it hit x hx
  simp only [id_eq] at this
  by_cases hm : x ∈ op.labels
  · exact hm
  · rw [if_neg hm] at this
    exact absurd this (Nat.ne_of_lt (Nat.lt_succ_self x))

end

theorem progScoped_of {n : Nat} {vars : List Nat} {T : List Stmt}
    (h : ∀ a st b, T = a ++ st :: b → ∀ x ∈ st.op.labels, InScope n (vars ++ assigned a) x) : ProgScoped n vars T := by
  induction T generalizing vars with
  | nil => trivial
  | cons st T ih =>
    refine ⟨?_, ih ?_⟩
    · intro its e it hit x hx
      have := h [] st T rfl x (itemsOf_names e it hit x hx)
      simpa [assigned] using this
    · intro a st' b e x hx
      have := h (st :: a) st' b (by rw [e]; rfl) x hx
      rw [assigned_cons, ← List.append_assoc] at this; exact this

/-! ### The start -/

/-- The log of a page on which nothing has been done. -/
def startLog (s0 : JitMemory) (base : Nat) (p : Page) : PageLog where
  counter := (s0.pages p).counter
  mem pos := s0.mem (addrOf base p pos)
  consts := (s0.pages p).constants
  data := (s0.pages p).data
  refs _ := []
  binds _ := none

theorem renObj_id {n : Nat} {d : DataType × Nat} (h : ∀ x ∈ d.2 :: d.1.labels, x < n) : renObj (valueOf n []) d = d := by
  obtain ⟨d, x⟩ := d
  have hv : ∀ y, y < n → valueOf n [] y = y := fun y hy => by simp only [valueOf, hy, if_true]
  simp only [renObj, hv x (h x List.mem_cons_self), Prod.mk.injEq, and_true]
  cases d with
  | absAddress l => simp only [DataType.rename, hv l (h l (by simp [DataType.labels]))]
  | _ => rfl

theorem rep_start {base s0} (hv : HInv base s0) (hc : Closed s0) : Rep base s0 [] (startLog s0 base) s0 := by
  have hn : ∀ x, x < s0.labels.length → valueOf s0.labels.length [] x = x := fun y hy => by simp only [valueOf, hy, if_true]
  have hsc : ∀ x, InScope s0.labels.length [] x → x < s0.labels.length := fun x h => h.elim id (fun h => absurd h (by simp))
  have hobj : ∀ p, p < 2 → ∀ d ∈ (s0.pages p).constants ++ (s0.pages p).data, ∀ x ∈ d.2 :: d.1.labels, x < s0.labels.length := by
    intro p hp d hd x hx
    rcases List.mem_cons.1 hx with rfl | hx
    · have : ∃ q, (q, d) ∈ objects s0 := by
        simp only [objects, List.mem_append, List.mem_map] at hd ⊢
        rcases page_two hp with rfl | rfl
        · rcases hd with hd | hd
          · exact ⟨0, by simp [hd]⟩
          · exact ⟨2, by simp [hd, DATA_PAGE]⟩
        · rcases hd with hd | hd
          · exact ⟨1, by simp [hd]⟩
          · exact ⟨2, by simp [hd, DATA_PAGE]⟩
      obtain ⟨q, hq⟩ := this
      exact hv.fresh _ hq
    · obtain ⟨d, l⟩ := d
      cases d with
      | absAddress y =>
        rw [List.mem_singleton.1 hx]
        exact hc p y l hd
      | u64 | u32 | bytes | align8 => cases hx
  refine ⟨by simp, ?_, fun _ _ => rfl, ?_, fun _ _ _ _ => rfl, fun _ _ => rfl, ?_, ?_, fun _ _ _ _ => ⟨rfl, rfl⟩⟩
  · intro p hp
    simp only [startLog]
    have e1 : (s0.pages p).constants.map (renObj (valueOf s0.labels.length [])) = (s0.pages p).constants :=
      (List.map_congr_left (g := id) fun d hd => renObj_id (hobj p hp d (List.mem_append_left _ hd))).trans (List.map_id _)
    have e2 : (s0.pages p).data.map (renObj (valueOf s0.labels.length [])) = (s0.pages p).data :=
      (List.map_congr_left (g := id) fun d hd => renObj_id (hobj p hp d (List.mem_append_right _ hd))).trans (List.map_id _)
    rw [e1, e2]
  · intro p hp d hd x hx
    exact .inl (hobj p hp d hd x hx)
  · intro x hx; rw [hn x (hsc x hx)]; rfl
  · intro x hx; rw [hn x (hsc x hx)]; simp [startLog]

theorem progOk_start {base s0 n T} (h : Orderly n T)
    (abs : ∀ a st b x, T = a ++ st :: b → st.op = .new (.abs_address x) → InScope n (assigned a) x) :
    ProgOk n [] (startLog s0 base) T where
  cur := h.onCurrent
  once := h.once
  fresh := h.fresh
  abs := abs
  binder := h.binder
  bound _ _ _ hx := absurd rfl hx

end Monoasm
