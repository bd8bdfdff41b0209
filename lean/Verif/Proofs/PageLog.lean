import Verif.Proofs.Rename
import Verif.Proofs.Past
/-
  What a program does to one page, independently of the other pages.
-/

set_option linter.unusedSimpArgs false

namespace Monoasm
open JitMemory Spec

/-- What is known of a page; labels are given by variables. -/
structure PageLog where
  counter : Nat
  mem : Nat → Byte
  consts : List (DataType × Nat)
  data : List (DataType × Nat)
  refs : Nat → List TargetType
  binds : Nat → Option Nat

namespace PageLog

def emit (bs : List Byte) (L : PageLog) : Option PageLog :=
  if L.counter + bs.length ≤ PAGE_SIZE then
    some { L with counter := L.counter + bs.length, mem := putBytes L.mem L.counter bs }
  else none

def item (p : Page) (L : PageLog) : Item → Option PageLog
  | .i8 v => L.emit [v]
  | .i16 v => L.emit (le16 v)
  | .i32 v => L.emit (le32 v)
  | .i64 v => L.emit (le64 v)
  | .rel x off => PageLog.emit (le32 0)
      { L with refs := fun y => if y = x then L.refs y ++ [.rel p off L.counter] else L.refs y }
  | .bind x => some { L with binds := fun y => if y = x then some L.counter else L.binds y }
  | .fail _ => none

def items (p : Page) : List Item → PageLog → Option PageLog
  | [], L => some L
  | it :: its, L => (L.item p it).bind (items p its)

def align (m : Nat) (L : PageLog) : Option PageLog := some { L with counter := MemPage.alignUp L.counter m }

def call (L : PageLog) : PageCall → Option PageLog
  | .align_page => L.align 4095
  | .align16 => L.align 15
  | .align8 => L.align 7
  | .align4 => L.align 3
  | .emitb v => L.emit [v]
  | .emitw v => L.emit (le16 v)
  | .emitl v => L.emit (le32 v)
  | .emitq v => L.emit (le64 v)
  | .poke pos v => if pos < PAGE_SIZE then some { L with mem := upd L.mem pos v } else none

def new (c : NewCall) (x : Nat) (L : PageLog) : PageLog :=
  { L with
    consts := L.consts ++ (c.const.map fun d => (d, x)).toList
    data := L.data ++ (c.datum.map fun d => (d, x)).toList }

def stmt (st : Stmt) (L : PageLog) : Option PageLog :=
  match st.op with
  | .cur c => L.call c
  | .new c => some (L.new c st.var)
  | op => op.itemsOf.bind fun its => items st.page its L

def prog : List Stmt → PageLog → Option PageLog
  | [], L => some L
  | st :: T, L => (stmt st L).bind (prog T)

end PageLog

def DataType.rename (f : Nat → DestLabel) : DataType → DataType
  | .absAddress l => .absAddress (f l)
  | d => d

/-- The label whose address the object holds. -/
def DataType.labels : DataType → List Nat
  | .absAddress l => [l]
  | _ => []

def renObj (f : Nat → DestLabel) (x : DataType × Nat) : DataType × DestLabel := (x.1.rename f, f x.2)

/-! ### Values of variables -/

section
variable {n : Nat} {vars : List Nat}

theorem valueOf_lt {x} (h : InScope n vars x) : valueOf n vars x < n + vars.length := by
  unfold valueOf; split
  · rename_i h1
    exact Nat.lt_of_lt_of_le h1 (Nat.le_add_right _ _)
  · rename_i h1
    have := List.idxOf_lt_length_of_mem (h.resolve_left h1)
    exact Nat.add_lt_add_left this n

theorem valueOf_out {x} (h : ¬ InScope n vars x) : valueOf n vars x = n + vars.length := by
  have h1 : ¬ x < n := fun c => h (.inl c)
  have h2 : x ∉ vars := fun c => h (.inr c)
  simp only [valueOf, h1, if_false]
  rw [List.idxOf_eq_length h2]

theorem valueOf_append {x} (ys) (h : InScope n vars x) : valueOf n (vars ++ ys) x = valueOf n vars x := by
  simp only [valueOf]
  split
  · rfl
  · rename_i h1
    rw [List.idxOf_append, if_pos (h.resolve_left h1)]

theorem valueOf_inj {x y} (hx : InScope n vars x) (hy : InScope n vars y)
    (h : valueOf n vars x = valueOf n vars y) : x = y := by
  simp only [valueOf] at h
  by_cases h1 : x < n <;> by_cases h2 : y < n <;> simp only [h1, h2, if_true, if_false] at h
  · exact h
  · have h : x = n + vars.idxOf y := h
    omega
  · have h : n + vars.idxOf x = y := h
    omega
  · have h : n + vars.idxOf x = n + vars.idxOf y := h
    have hx := hx.resolve_left h1
    have hy := hy.resolve_left h2
    have e : vars.idxOf x = vars.idxOf y := by omega
    have a := List.getElem_idxOf (List.idxOf_lt_length_of_mem hx)
    have b := List.getElem_idxOf (List.idxOf_lt_length_of_mem hy)
    simp only [e] at a
    exact a.symm.trans b

theorem valueOf_surj {l : Nat} (hn : vars.Nodup) (hf : ∀ z ∈ vars, n ≤ z) (h : l < n + vars.length) :
    ∃ x, InScope n vars x ∧ valueOf n vars x = l := by
  by_cases h1 : l < n
  · exact ⟨l, .inl h1, by simp [valueOf, h1]⟩
  · have h2 : l - n < vars.length := by omega
    have hm : vars[l - n] ∈ vars := List.getElem_mem h2
    refine ⟨vars[l - n], .inr hm, ?_⟩
    have : ¬ vars[l - n] < n := by have := hf _ hm; omega
    simp only [valueOf, this, if_false]
    rw [List.Nodup.idxOf_getElem hn]
    show n + (l - n) = l
    omega

theorem inScope_append {x ys} (h : InScope n vars x) : InScope n (vars ++ ys) x :=
  h.imp id fun h => List.mem_append_left _ h

end

/-! ### States and logs -/

/-- Where the label in variable `x` is bound. -/
def whereIs (s0 : JitMemory) (L : Page → PageLog) (x : Nat) : Option (Page × Nat) :=
  match (L 0).binds x with
  | some c => some (0, c)
  | none => match (L 1).binds x with
    | some c => some (1, c)
    | none => s0.locOf x

/-- `s` was reached from `s0` by a program that assigned `vars` and did `L p` to page `p`. -/
structure Rep (base : Nat) (s0 : JitMemory) (vars : List Nat) (L : Page → PageLog) (s : JitMemory) : Prop where
  len : s.labels.length = s0.labels.length + vars.length
  pages : ∀ p, p < 2 → s.pages p = { s0.pages p with
    counter := (L p).counter
    constants := (L p).consts.map (renObj (valueOf s0.labels.length vars))
    data := (L p).data.map (renObj (valueOf s0.labels.length vars)) }
  others : ∀ p, 2 ≤ p → s.pages p = s0.pages p
  inScope : ∀ p, p < 2 → ∀ d ∈ (L p).consts ++ (L p).data, ∀ x ∈ d.2 :: d.1.labels, InScope s0.labels.length vars x
  mem : ∀ p, p < 2 → ∀ pos, pos < PAGE_SIZE → s.mem (addrOf base p pos) = (L p).mem pos
  rest : ∀ a, (∀ p, p < 2 → ¬ inPage base p a) → s.mem a = s0.mem a
  loc : ∀ x, InScope s0.labels.length vars x → s.locOf (valueOf s0.labels.length vars x) = whereIs s0 L x
  tgt : ∀ x, InScope s0.labels.length vars x →
    (targets s (valueOf s0.labels.length vars x)).Perm (targets s0 x ++ ((L 0).refs x ++ (L 1).refs x))
  unknown : ∀ x, ¬ InScope s0.labels.length vars x → ∀ p, p < 2 → (L p).binds x = none ∧ (L p).refs x = []

/-- The log of page `p` replaced. -/
def setLog (L : Page → PageLog) (p : Page) (l : PageLog) : Page → PageLog := fun q => if q = p then l else L q

@[simp] theorem setLog_same (L p l) : setLog L p l p = l := by simp [setLog]
theorem setLog_ne (L l) {p q : Page} (h : q ≠ p) : setLog L p l q = L q := by simp [setLog, h]

section
variable {base : Nat} {s0 s : JitMemory} {vars : List Nat} {L : Page → PageLog}

theorem Rep.page_log {p l} (hp : p < 2) (hb : l.binds = (L p).binds) (x) :
    whereIs s0 (setLog L p l) x = whereIs s0 L x := by
  have : ∀ q, (setLog L p l q).binds = (L q).binds := by
    intro q; by_cases h : q = p
    · subst h; simp [hb]
    · rw [setLog_ne _ _ h]
  simp only [whereIs, this]

theorem setLog_refs {p l} (hb : l.refs = (L p).refs) (q) : (setLog L p l q).refs = (L q).refs := by
  by_cases h : q = p
  · subst h; simp [hb]
  · rw [setLog_ne _ _ h]

theorem setLog_objs {p l} (hc : l.consts = (L p).consts) (hd : l.data = (L p).data) (q) :
    (setLog L p l q).consts = (L q).consts ∧ (setLog L p l q).data = (L q).data := by
  by_cases h : q = p
  · subst h; simp [hc, hd]
  · rw [setLog_ne _ _ h]; exact ⟨rfl, rfl⟩

/-- Changing bytes and the cursor of page `p`. -/
theorem Rep.setPage (h : Rep base s0 vars L s) {p : Page} (hp : p < 2) {l : PageLog} {s' : JitMemory}
    (hlab : s'.labels = s.labels)
    (hpg : s'.pages = fun q => if q = p then { s.pages q with counter := l.counter } else s.pages q)
    (hmem : ∀ pos, pos < PAGE_SIZE → s'.mem (addrOf base p pos) = l.mem pos)
    (hout : ∀ a, ¬ inPage base p a → s'.mem a = s.mem a)
    (h1 : l.consts = (L p).consts) (h2 : l.data = (L p).data) (h3 : l.refs = (L p).refs) (h4 : l.binds = (L p).binds) :
    Rep base s0 vars (setLog L p l) s' where
  len := by rw [hlab]; exact h.len
  pages q hq := by
    rw [hpg]
    by_cases e : q = p
    · subst e; simp only [if_true, setLog_same, h.pages q hq, h1, h2]
    · simp only [e, if_false, setLog_ne _ _ e]; exact h.pages q hq
  others q hq := by
    rw [hpg]
    have e : q ≠ p := by intro e; subst e; exact absurd hp (Nat.not_lt.2 hq)
    simp only [e, if_false]; exact h.others q hq
  inScope q hq d := by
    rw [(setLog_objs h1 h2 q).1, (setLog_objs h1 h2 q).2]; exact h.inScope q hq d
  mem q hq pos hpos := by
    by_cases e : q = p
    · subst e; simp only [setLog_same]; exact hmem pos hpos
    · rw [setLog_ne _ _ e, hout]
      · exact h.mem q hq pos hpos
      · simp only [inPage, addrOf]
        have key : ∀ p q : Nat, q ≠ p → ¬ (base + PAGE_SIZE * p ≤ base + PAGE_SIZE * q + pos ∧
            base + PAGE_SIZE * q + pos < base + PAGE_SIZE * p + PAGE_SIZE) := by
          intro p q e; rw [PAGE_SIZE_eq] at *; omega
        exact key p q e
  rest a ha := (hout a (ha p hp)).trans (h.rest a ha)
  loc x hx := by
    rw [Rep.page_log hp h4]
    have := h.loc x hx
    simp only [JitMemory.locOf, hlab] at this ⊢; exact this
  tgt x hx := by
    rw [setLog_refs h3, setLog_refs h3]
    have := h.tgt x hx
    simp only [targets, hlab] at this ⊢; exact this
  unknown x hx q hq := by
    have := h.unknown x hx q hq
    rw [setLog_refs h3]
    by_cases e : q = p
    · subst e; rw [setLog_same, h4]; exact this
    · rw [setLog_ne _ _ e]; exact this

theorem putBytes_shift (m m' : Nat → Byte) (a c : Nat) (bs : List Byte) (pos : Nat)
    (h : m (a + pos) = m' pos) : putBytes m (a + c) bs (a + pos) = putBytes m' c bs pos := by
  by_cases h1 : c ≤ pos ∧ pos < c + bs.length
  · obtain ⟨i, rfl⟩ := Nat.exists_eq_add_of_le h1.1
    rw [← Nat.add_assoc, putBytes_in _ (by omega), putBytes_in _ (by omega)]
  · rw [putBytes_out _ (by omega), putBytes_out _ (by omega), h]

theorem Rep.contents (h : Rep base s0 vars L s) (hi : Inv base s0) (p : Page) :
    (s.pages p).contents = base + PAGE_SIZE * p := by
  by_cases hp : p < 2
  · rw [h.pages p hp]; exact hi.contents p
  · rw [h.others p (Nat.not_lt.1 hp)]; exact hi.contents p

theorem Rep.counter (h : Rep base s0 vars L s) {p : Page} (hp : p < 2) : (s.pages p).counter = (L p).counter := by
  rw [h.pages p hp]

/-- `m` does `o` to page `p`. -/
def Follows (base : Nat) (s0 : JitMemory) (vars : List Nat) (L : Page → PageLog) (s : JitMemory) (p : Page)
    (m : M Unit) (o : Option PageLog) : Prop :=
  (∃ l s', o = some l ∧ m s = .ok () s' ∧ s'.page = s.page ∧ Rep base s0 vars (setLog L p l) s')
    ∨ (o = none ∧ ∃ e s', m s = .panic e s')

/-- Emission. -/
theorem Rep.emit (h : Rep base s0 vars L s) (hi : Inv base s0) {p : Page} (hp : p < 2) (bs : List Byte) :
    Follows base s0 vars L s p (emitRes p bs) ((L p).emit bs) := by
  unfold Follows
  simp only [PageLog.emit, emitRes, h.counter hp]
  split
  · rename_i hc
    refine .inl ⟨_, _, rfl, rfl, rfl, h.setPage hp rfl ?_ ?_ ?_ rfl rfl rfl rfl⟩
    · funext q
      simp only [emitted]
      by_cases e : q = p
      · subst e; simp only [if_true, h.counter hp]
      · simp only [e, if_false]
    · intro pos hpos
      simp only [emitted, h.contents hi, h.counter hp, addrOf]
      exact putBytes_shift _ _ _ _ _ _ (h.mem p hp pos hpos)
    · intro a ha
      simp only [emitted, h.contents hi, h.counter hp]
      apply putBytes_out
      simp only [inPage] at ha
      generalize hb : base + PAGE_SIZE * p = b at *
      omega
  · exact .inr ⟨rfl, _, _, rfl⟩

theorem Rep.emitq (h : Rep base s0 vars L s) (hi : Inv base s0) {p : Page} (hp : p < 2) (v : BitVec 64) :
    Follows base s0 vars L s p (MemPage.emitq p v) ((L p).emit (le64 v)) := by
  have := h.emit hi hp (le64 v)
  by_cases hc : (s.pages p).counter + 8 ≤ PAGE_SIZE
  · have e : MemPage.emitq p v s = emitRes p (le64 v) s := by
      rw [emitq_run _ _ _ hc, emitRes, if_pos (by simpa [le64] using hc)]
    unfold Follows at this ⊢
    rw [e]; exact this
  · refine .inr ⟨?_, ?_⟩
    · rw [h.counter hp] at hc
      simp only [PageLog.emit]
      rw [if_neg]; simpa [le64] using hc
    · cases e : MemPage.emitq p v s with
      | ok a s1 => exact absurd (emitq_ok e).1 hc
      | panic er s1 => exact ⟨_, _, rfl⟩

theorem valueOf_ne {n x y} (hx : InScope n vars x) (hy : InScope n vars y) (h : y ≠ x) : valueOf n vars x ≠ valueOf n vars y :=
  fun e => h (valueOf_inj hx hy e).symm

theorem targets_modify' {s : JitMemory} {l l' : Nat} {f : LabelInfo → LabelInfo} :
    targets ({ s with labels := s.labels.modify l f } : JitMemory) l'
      = match s.labels[l']? with
        | some i => (if l = l' then f i else i).target
        | none => [] := by
  simp only [targets, List.getElem?_modify]
  cases s.labels[l']? with
  | none => rfl
  | some i => by_cases e : l = l' <;> simp [e]

theorem page_two {p : Page} (h : p < 2) : p = 0 ∨ p = 1 := by
  have key : ∀ n : Nat, n < 2 → n = 0 ∨ n = 1 := by omega
  exact key p h

/-- A reference. -/
theorem Rep.ref (h : Rep base s0 vars L s) {p : Page} (hp : p < 2) {x} (hx : InScope s0.labels.length vars x) (t : TargetType) :
    Rep base s0 vars (setLog L p { L p with refs := fun y => if y = x then (L p).refs y ++ [t] else (L p).refs y })
      { s with labels := s.labels.modify (valueOf s0.labels.length vars x) fun i => { i with target := i.target ++ [t] } } where
  len := by simp [h.len]
  pages q hq := by
    by_cases e : q = p
    · subst e; rw [setLog_same]; exact h.pages q hq
    · rw [setLog_ne _ _ e]; exact h.pages q hq
  others q hq := h.others q hq
  inScope q hq d := by
    by_cases e : q = p
    · subst e; rw [setLog_same]; exact h.inScope q hq d
    · rw [setLog_ne _ _ e]; exact h.inScope q hq d
  mem q hq pos hpos := by
    by_cases e : q = p
    · subst e; rw [setLog_same]; exact h.mem q hq pos hpos
    · rw [setLog_ne _ _ e]; exact h.mem q hq pos hpos
  rest := h.rest
  loc y hy := by
    refine Eq.trans ?_ (Eq.trans (h.loc y hy) (Rep.page_log (s0 := s0) (L := L) (l := { L p with refs := fun y => if y = x then (L p).refs y ++ [t] else (L p).refs y }) hp rfl y).symm)
    rw [locOf_modify]
    simp only [JitMemory.locOf]
    cases s.labels[valueOf s0.labels.length vars y]? with
    | none => rfl
    | some i => simp only [Option.bind_some]; split <;> rfl
  tgt y hy := by
    have hy' := h.tgt y hy
    have hlt : valueOf s0.labels.length vars y < s.labels.length := by rw [h.len]; exact valueOf_lt hy
    rw [targets_modify']
    rw [targets, List.getElem?_eq_getElem hlt] at hy'
    rw [List.getElem?_eq_getElem hlt]
    simp only at hy' ⊢
    by_cases e : y = x
    · subst e
      simp only [if_true]
      refine (hy'.append_right [t]).trans ?_
      have hp' : p = 0 ∨ p = 1 := page_two hp
      rcases hp' with rfl | rfl
      · have : setLog L 0 { L 0 with refs := fun z => if z = y then (L 0).refs z ++ [t] else (L 0).refs z } 1 = L 1 :=
          setLog_ne _ _ (by decide)
        rw [this, setLog_same]
        simp only [if_true, List.append_assoc]
        refine List.Perm.append_left _ (List.Perm.append_left _ ?_)
        exact List.perm_append_comm
      · have : setLog L 1 { L 1 with refs := fun z => if z = y then (L 1).refs z ++ [t] else (L 1).refs z } 0 = L 0 :=
          setLog_ne _ _ (by decide)
        rw [this, setLog_same]
        simp only [if_true, List.append_assoc]
        exact List.Perm.refl _
    · rw [if_neg (valueOf_ne hx hy e)]
      have : ∀ q, (setLog L p { L p with refs := fun z => if z = x then (L p).refs z ++ [t] else (L p).refs z } q).refs y
          = (L q).refs y := by
        intro q
        by_cases e' : q = p
        · subst e'; simp [e]
        · rw [setLog_ne _ _ e']
      rw [this, this]; exact hy'
  unknown y hy q hq := by
    have hk := h.unknown y hy q hq
    have e : y ≠ x := fun e => hy (e ▸ hx)
    by_cases e' : q = p
    · subst e'; rw [setLog_same]; simp only [e, if_false]; exact hk
    · rw [setLog_ne _ _ e']; exact hk

/-- A binding. -/
theorem Rep.bind (h : Rep base s0 vars L s) {p : Page} (hp : p < 2) {x} (hx : InScope s0.labels.length vars x)
    (hb : ∀ q, q < 2 → q ≠ p → (L q).binds x = none) :
    Rep base s0 vars (setLog L p { L p with binds := fun y => if y = x then some (L p).counter else (L p).binds y })
      { s with labels := s.labels.modify (valueOf s0.labels.length vars x) fun i => { i with loc := some (p, (L p).counter) } } where
  len := by simp [h.len]
  pages q hq := by
    by_cases e : q = p
    · subst e; rw [setLog_same]; exact h.pages q hq
    · rw [setLog_ne _ _ e]; exact h.pages q hq
  others q hq := h.others q hq
  inScope q hq d := by
    by_cases e : q = p
    · subst e; rw [setLog_same]; exact h.inScope q hq d
    · rw [setLog_ne _ _ e]; exact h.inScope q hq d
  mem q hq pos hpos := by
    by_cases e : q = p
    · subst e; rw [setLog_same]; exact h.mem q hq pos hpos
    · rw [setLog_ne _ _ e]; exact h.mem q hq pos hpos
  rest := h.rest
  loc y hy := by
    have hy' := h.loc y hy
    have hlt : valueOf s0.labels.length vars y < s.labels.length := by rw [h.len]; exact valueOf_lt hy
    rw [locOf_modify]
    rw [JitMemory.locOf, List.getElem?_eq_getElem hlt] at hy'
    rw [List.getElem?_eq_getElem hlt]
    simp only [Option.bind_some] at hy' ⊢
    by_cases e : y = x
    · subst e
      simp only [if_true]
      have hp' : p = 0 ∨ p = 1 := page_two hp
      rcases hp' with rfl | rfl
      · simp [whereIs]
      · have := hb 0 (by decide) (by decide)
        simp only [whereIs, setLog_ne L _ (show (0 : Page) ≠ 1 by decide), this, setLog_same, if_true]
    · rw [if_neg (valueOf_ne hx hy e), hy']
      have : ∀ q, (setLog L p { L p with binds := fun z => if z = x then some (L p).counter else (L p).binds z } q).binds y
          = (L q).binds y := by
        intro q
        by_cases e' : q = p
        · subst e'; simp [e]
        · rw [setLog_ne _ _ e']
      simp only [whereIs, this]
  tgt y hy := by
    have hy' := h.tgt y hy
    have : ∀ q, (setLog L p { L p with binds := fun z => if z = x then some (L p).counter else (L p).binds z } q).refs y
        = (L q).refs y := by
      intro q
      by_cases e' : q = p
      · subst e'; simp
      · rw [setLog_ne _ _ e']
    rw [this, this, targets_modify']
    rw [targets] at hy'
    cases e : s.labels[valueOf s0.labels.length vars y]? with
    | none => rw [e] at hy'; exact hy'
    | some i =>
      rw [e] at hy'
      simp only at hy' ⊢
      split <;> exact hy'
  unknown y hy q hq := by
    have hk := h.unknown y hy q hq
    have e : y ≠ x := fun e => hy (e ▸ hx)
    by_cases e' : q = p
    · subst e'; rw [setLog_same]; simp only [e, if_false]; exact hk
    · rw [setLog_ne _ _ e']; exact hk

theorem setLog_setLog (L : Page → PageLog) (p l l') : setLog (setLog L p l) p l' = setLog L p l' := by
  funext q; simp only [setLog]; split <;> rfl

theorem setLog_self (L : Page → PageLog) (p) : setLog L p (L p) = L := by
  funext q; simp only [setLog]; split
  · rename_i e; rw [e]
  · rfl

/-- The variables of an item. -/
def Item.names : Item → List Nat
  | .rel x _ => [x]
  | .bind x => [x]
  | _ => []

theorem modifyLabel_in {l f} (h : l < s.labels.length) :
    modifyLabel l f s = .ok () { s with labels := s.labels.modify l f } := by simp [modifyLabel, h]

theorem modifyLabel_out {l f} (h : ¬ l < s.labels.length) :
    modifyLabel l f s = .panic .indexOutOfBounds s := by simp [modifyLabel, h]

theorem Follows.congr {p m m' o} (e : m s = m' s) (h : Follows base s0 vars L s p m' o) : Follows base s0 vars L s p m o := by
  unfold Follows at *; rw [e]; exact h

theorem Rep.item (h : Rep base s0 vars L s) (hi : Inv base s0) {p : Page} (hp : p < 2) (hs : s.page = p) (it : Item)
    (hx : ∀ x ∈ it.names, InScope s0.labels.length vars x)
    (hb : ∀ x, it = .bind x → ∀ q, q < 2 → q ≠ p → (L q).binds x = none) :
    Follows base s0 vars L s p (it.rename (valueOf s0.labels.length vars)).run ((L p).item p it) := by
  cases it with
  | i8 v => exact .congr (by show MemPage.emitb s.page v s = _; rw [hs, emitb_run]) (h.emit hi hp [v])
  | i16 v => exact .congr (by show MemPage.emitw s.page v s = _; rw [hs, emitw_run]) (h.emit hi hp (le16 v))
  | i32 v => exact .congr (by show MemPage.emitl s.page v s = _; rw [hs, emitl_run]) (h.emit hi hp (le32 v))
  | i64 v => exact .congr (by show MemPage.emitq s.page v s = _; rw [hs]) (h.emitq hi hp v)
  | fail e => exact .inr ⟨rfl, _, _, rfl⟩
  | bind x =>
    have hx := hx x (by simp [Item.names])
    have hlt : valueOf s0.labels.length vars x < s.labels.length := by rw [h.len]; exact valueOf_lt hx
    refine .inl ⟨_, _, rfl, ?_, ?_, h.bind hp hx (hb x rfl)⟩
    case refine_2 => rfl
    show modifyLabel _ _ s = _
    simp only [modifyLabel_in hlt, hs, h.counter hp]
  | rel x off =>
    have hx := hx x (by simp [Item.names])
    have hlt : valueOf s0.labels.length vars x < s.labels.length := by rw [h.len]; exact valueOf_lt hx
    have h' := h.ref hp hx (.rel p off (L p).counter)
    have h2 := h'.emit hi hp (le32 0)
    have e : (Item.rel (valueOf s0.labels.length vars x) off).run s =
        emitRes p (le32 0) { s with labels := s.labels.modify (valueOf s0.labels.length vars x) fun i =>
          { i with target := i.target ++ [.rel p off (L p).counter] } } := by
      have e1 : save_reloc (valueOf s0.labels.length vars x) off s = .ok () { s with
          labels := s.labels.modify (valueOf s0.labels.length vars x) fun i =>
            { i with target := i.target ++ [.rel p off (L p).counter] } } := by
        show modifyLabel _ _ s = _
        simp only [modifyLabel_in hlt, hs, h.counter hp]
      simp only [Item.run]
      rw [ok_bind e1]
      show MemPage.emitl s.page 0 _ = _
      rw [hs, emitl_run]
    rcases h2 with ⟨l, s', k1, k2, k3, k4⟩ | ⟨k1, er, s', k2⟩
    · rw [setLog_same] at k1
      rw [setLog_setLog] at k4
      exact .inl ⟨l, s', k1, e.trans k2, k3, k4⟩
    · rw [setLog_same] at k1
      exact .inr ⟨k1, er, s', e.trans k2⟩

/-- Unknown labels are detected. -/
theorem Rep.item_panic (h : Rep base s0 vars L s) (it : Item) (hx : ¬ ∀ x ∈ it.names, InScope s0.labels.length vars x) :
    ∃ e s', (it.rename (valueOf s0.labels.length vars)).run s = .panic e s' := by
  have key : ∀ x, ¬ InScope s0.labels.length vars x → ¬ valueOf s0.labels.length vars x < s.labels.length := by
    intro x hx; rw [valueOf_out hx, h.len]; exact Nat.lt_irrefl _
  cases it <;> simp only [Item.names, List.not_mem_nil, false_implies, implies_true, not_true_eq_false, List.mem_singleton, forall_eq] at hx
  case rel x off =>
    refine ⟨.indexOutOfBounds, s, ?_⟩
    simp only [Item.rename, Item.run]
    exact panic_bind (modifyLabel_out (key x hx))
  case bind x => exact ⟨.indexOutOfBounds, s, modifyLabel_out (key x hx)⟩

theorem PageLog.items_cons (p it its) (l : PageLog) : PageLog.items p (it :: its) l = (l.item p it).bind (PageLog.items p its) := rfl

theorem Rep.items (h : Rep base s0 vars L s) (hi : Inv base s0) {p : Page} (hp : p < 2) (hs : s.page = p) (its : List Item)
    (hx : ∀ it ∈ its, ∀ x ∈ it.names, InScope s0.labels.length vars x)
    (hb : ∀ x, .bind x ∈ its → ∀ q, q < 2 → q ≠ p → (L q).binds x = none) :
    Follows base s0 vars L s p (runItems (ren (valueOf s0.labels.length vars) its)) (PageLog.items p its (L p)) := by
  induction its generalizing s L with
  | nil => exact .inl ⟨L p, s, rfl, rfl, rfl, by rw [setLog_self]; exact h⟩
  | cons it its ih =>
    have h1 := h.item hi hp hs it (hx it List.mem_cons_self) (fun x e => hb x (by simp [e]))
    rw [PageLog.items_cons]
    rcases h1 with ⟨l, s1, k1, k2, k3, k4⟩ | ⟨k1, er, s1, k2⟩
    · have h2 := ih k4 (k3.trans hs) (fun it' h' => hx it' (List.mem_cons_of_mem _ h')) (by
        intro x hx' q hq hne
        rw [setLog_ne _ _ hne]; exact hb x (List.mem_cons_of_mem _ hx') q hq hne)
      rw [k1]
      have e : runItems (ren (valueOf s0.labels.length vars) (it :: its)) s = runItems (ren (valueOf s0.labels.length vars) its) s1 := by
        rw [ren_cons, runItems_cons, ok_bind k2]
      simp only [Option.bind_some]
      rcases h2 with ⟨l', s', j1, j2, j3, j4⟩ | ⟨j1, er, s', j2⟩
      · rw [setLog_same] at j1; rw [setLog_setLog] at j4
        exact .inl ⟨l', s', j1, e.trans j2, j3.trans k3, j4⟩
      · rw [setLog_same] at j1
        exact .inr ⟨j1, er, s', e.trans j2⟩
    · rw [k1]
      exact .inr ⟨rfl, er, s1, by rw [ren_cons, runItems_cons]; exact panic_bind k2⟩

theorem Rep.items_panic (h : Rep base s0 vars L s) (hi : Inv base s0) {p : Page} (hp : p < 2) (hs : s.page = p) (its : List Item)
    (hb : ∀ x, .bind x ∈ its → ∀ q, q < 2 → q ≠ p → (L q).binds x = none)
    (hx : ¬ ∀ it ∈ its, ∀ x ∈ it.names, InScope s0.labels.length vars x) :
    ∃ e s', runItems (ren (valueOf s0.labels.length vars) its) s = .panic e s' := by
  induction its generalizing s L with
  | nil => exact absurd (by simp) hx
  | cons it its ih =>
    rw [ren_cons, runItems_cons]
    by_cases h1 : ∀ x ∈ it.names, InScope s0.labels.length vars x
    · rcases h.item hi hp hs it h1 (fun x e => hb x (by simp [e])) with ⟨l, s1, k1, k2, k3, k4⟩ | ⟨k1, er, s1, k2⟩
      · rw [ok_bind k2]
        refine ih k4 (k3.trans hs) ?_ ?_
        · intro x hx' q hq hne
          rw [setLog_ne _ _ hne]; exact hb x (List.mem_cons_of_mem _ hx') q hq hne
        · intro h2; refine hx fun it' h' => ?_
          rcases List.mem_cons.1 h' with rfl | h'
          · exact h1
          · exact h2 it' h'
      · exact ⟨er, s1, panic_bind k2⟩
    · obtain ⟨e, s', k⟩ := h.item_panic it h1
      exact ⟨e, s', panic_bind k⟩

theorem Rep.align (h : Rep base s0 vars L s) {p : Page} (hp : p < 2) (k : Nat) :
    Follows base s0 vars L s p (alignOp k p) ((L p).align (2 ^ k - 1)) := by
  refine .inl ⟨_, _, rfl, alignOp_run k p s, rfl, h.setPage hp rfl ?_ ?_ ?_ rfl rfl rfl rfl⟩
  · funext q; simp only [skipped]
    by_cases e : q = p
    · subst e; simp only [if_true, h.counter hp]
    · simp only [e, if_false]
  · intro pos hpos; exact h.mem p hp pos hpos
  · intro a _; rfl

theorem Rep.call (h : Rep base s0 vars L s) (hi : Inv base s0) {p : Page} (hp : p < 2) (c : PageCall) :
    Follows base s0 vars L s p (c.run p) ((L p).call c) := by
  cases c with
  | align_page => exact h.align hp 12
  | align16 => exact h.align hp 4
  | align8 => exact h.align hp 3
  | align4 => exact h.align hp 2
  | emitb v => exact .congr (emitb_run p v s) (h.emit hi hp [v])
  | emitw v => exact .congr (emitw_run p v s) (h.emit hi hp (le16 v))
  | emitl v => exact .congr (emitl_run p v s) (h.emit hi hp (le32 v))
  | emitq v => exact h.emitq hi hp v
  | poke pos v =>
    simp only [PageCall.run, PageLog.call]
    by_cases hc : pos < PAGE_SIZE
    · rw [if_pos hc]
      refine .inl ⟨_, { s with mem := upd s.mem ((s.pages p).contents + pos) v }, rfl,
        by simp only [MemPage.write]; rw [if_neg (Nat.not_le.2 hc)], rfl, h.setPage hp rfl ?_ ?_ ?_ rfl rfl rfl rfl⟩
      · funext q
        by_cases e : q = p
        · subst e; simp only [if_true, ← h.counter hp]
        · simp only [e, if_false]
      · intro i hi'
        simp only [h.contents hi, upd, addrOf]
        by_cases e : i = pos
        · subst e; simp
        · rw [if_neg (by omega), if_neg e]; exact h.mem p hp i hi'
      · intro a ha
        simp only [h.contents hi, upd]
        rw [if_neg]
        intro e; apply ha; subst e
        simp only [inPage]
        generalize base + PAGE_SIZE * p = b
        omega
    · rw [if_neg hc]
      exact .inr ⟨rfl, .pageSizeOverflow, s, by simp only [MemPage.write]; rw [if_pos (Nat.not_lt.1 hc)]⟩

theorem const_rename (f : Nat → DestLabel) (c : NewCall) : (c.rename f).const = c.const.map (DataType.rename f) := by
  cases c <;> rfl
theorem datum_rename (f : Nat → DestLabel) (c : NewCall) : (c.rename f).datum = c.datum.map (DataType.rename f) := by
  cases c <;> rfl

theorem renObj_congr {n : Nat} {vars ys : List Nat} {d : DataType × Nat} (h : ∀ x ∈ d.2 :: d.1.labels, InScope n vars x) :
    renObj (valueOf n (vars ++ ys)) d = renObj (valueOf n vars) d := by
  obtain ⟨d, x⟩ := d
  simp only [renObj, valueOf_append ys (h x List.mem_cons_self), Prod.mk.injEq, and_true]
  cases d with
  | absAddress l => simp only [DataType.rename, valueOf_append ys (h l (by simp [DataType.labels]))]
  | _ => rfl

theorem abs_of_mem {c : NewCall} {l} (h : DataType.absAddress l ∈ c.const.toList ++ c.datum.toList) : c = .abs_address l := by
  cases c with
  | abs_address l' =>
    rcases List.mem_append.1 h with h | h
    · rw [Option.mem_toList] at h; cases h; rfl
    · rw [Option.mem_toList] at h; cases h
  | _ =>
    rcases List.mem_append.1 h with h | h
    · rw [Option.mem_toList] at h; cases h
    · rw [Option.mem_toList] at h; cases h

/-- A new label. -/
theorem Rep.new (h : Rep base s0 vars L s) {p : Page} (hp : p < 2) (hs : s.page = p) (c : NewCall) (x : Nat)
    (hx : s0.labels.length ≤ x) (hx' : x ∉ vars)
    (hc : ∀ y, c = .abs_address y → InScope s0.labels.length vars y) :
    Rep base s0 (vars ++ [x]) (setLog L p ((L p).new c x)) (newState (c.rename (valueOf s0.labels.length vars)) s) := by
  have hv : valueOf s0.labels.length (vars ++ [x]) x = s.labels.length := by
    simp only [valueOf, Nat.not_lt.2 hx, if_false, h.len]
    rw [List.idxOf_append, if_neg hx']
    simp
  have hw : ∀ d ∈ c.const.toList ++ c.datum.toList, ∀ y ∈ d.labels, InScope s0.labels.length vars y := by
    intro d hd y hy
    cases d with
    | absAddress l =>
      rw [List.mem_singleton.1 hy]
      exact hc l (abs_of_mem hd)
    | u64 | u32 | bytes | align8 => cases hy
  have hnew : ∀ d ∈ c.const.toList ++ c.datum.toList,
      renObj (valueOf s0.labels.length (vars ++ [x])) (d, x) = (d.rename (valueOf s0.labels.length vars), s.labels.length) := by
    intro d hd
    simp only [renObj, hv, Prod.mk.injEq, and_true]
    cases d with
    | absAddress l => exact congrArg DataType.absAddress (valueOf_append _ (hw (.absAddress l) hd l (List.mem_singleton.2 rfl)))
    | _ => rfl
  have hscope : ∀ y, InScope s0.labels.length (vars ++ [x]) y → y = x ∨ InScope s0.labels.length vars y := by
    rintro y (hy | hy)
    · exact .inr (.inl hy)
    · rcases List.mem_append.1 hy with hy | hy
      · exact .inr (.inr hy)
      · exact .inl (by simpa using hy)
  have hold : ∀ q, q < 2 →
      (L q).consts.map (renObj (valueOf s0.labels.length (vars ++ [x]))) = (L q).consts.map (renObj (valueOf s0.labels.length vars))
      ∧ (L q).data.map (renObj (valueOf s0.labels.length (vars ++ [x]))) = (L q).data.map (renObj (valueOf s0.labels.length vars)) := by
    intro q hq
    refine ⟨List.map_congr_left fun d hd => renObj_congr (h.inScope q hq d (by simp [hd])),
      List.map_congr_left fun d hd => renObj_congr (h.inScope q hq d (by simp [hd]))⟩
  have hnx : ¬ InScope s0.labels.length vars x := fun hc => hc.elim (fun k => absurd hx (Nat.not_le.2 k)) hx'
  refine ⟨?_, ?_, ?_, ?_, ?_, ?_, ?_, ?_, ?_⟩
  · simp [newState, h.len, Nat.add_assoc]
  · intro q hq
    simp only [newState, hs]
    by_cases e : q = p
    · subst e
      simp only [if_true, setLog_same, PageLog.new, List.map_append, (hold q hq).1, (hold q hq).2, h.pages q hq, const_rename, datum_rename]
      congr 2
      · cases e : c.const with
        | none => rfl
        | some d => simp [hnew d (by simp [e])]
      · cases e : c.datum with
        | none => rfl
        | some d => simp [hnew d (by simp [e])]
    · simp only [e, if_false, setLog_ne _ _ e, (hold q hq).1, (hold q hq).2]; exact h.pages q hq
  · intro q hq
    simp only [newState, hs]
    have e : q ≠ p := by intro e; subst e; exact absurd hp (Nat.not_lt.2 hq)
    simp only [e, if_false]; exact h.others q hq
  · intro q hq d hd y hy
    by_cases e : q = p
    · subst e
      simp only [setLog_same, PageLog.new, List.mem_append, Option.mem_toList, Option.map_eq_some_iff] at hd
      have k : ∀ d' ∈ c.const.toList ++ c.datum.toList, d = (d', x) → InScope s0.labels.length (vars ++ [x]) y := by
        rintro d' hd' rfl
        rcases List.mem_cons.1 hy with rfl | hy
        · exact .inr (by simp)
        · exact inScope_append (hw d' hd' y hy)
      rcases hd with (hd | ⟨d', hd, rfl⟩) | (hd | ⟨d', hd, rfl⟩)
      · exact inScope_append (h.inScope q hq d (by simp [hd]) y hy)
      · exact k d' (by simp [hd]) rfl
      · exact inScope_append (h.inScope q hq d (by simp [hd]) y hy)
      · exact k d' (by simp [hd]) rfl
    · rw [setLog_ne _ _ e] at hd
      exact inScope_append (h.inScope q hq d hd y hy)
  · intro q hq pos hpos
    have : (setLog L p ((L p).new c x) q).mem = (L q).mem := by
      by_cases e : q = p
      · subst e; rw [setLog_same]; rfl
      · rw [setLog_ne _ _ e]
    rw [this]; exact h.mem q hq pos hpos
  · exact h.rest
  · intro y hy
    rw [Rep.page_log (l := (L p).new c x) hp rfl]
    rcases hscope y hy with rfl | hy
    · rw [hv]
      have hb : (newState (c.rename (valueOf s0.labels.length vars)) s).locOf s.labels.length = none := by
        simp [JitMemory.locOf, newState, LabelInfo.new]
      rw [hb]
      simp only [whereIs, (h.unknown _ hnx 0 (by decide)).1, (h.unknown _ hnx 1 (by decide)).1]
      simp [JitMemory.locOf, List.getElem?_eq_none hx]
    · rw [valueOf_append _ hy, ← h.loc y hy]
      have hlt : valueOf s0.labels.length vars y < s.labels.length := by rw [h.len]; exact valueOf_lt hy
      simp only [JitMemory.locOf, newState]
      rw [List.getElem?_append_left hlt]
  · intro y hy
    rw [setLog_refs (l := (L p).new c x) rfl, setLog_refs (l := (L p).new c x) rfl]
    rcases hscope y hy with rfl | hy
    · rw [hv, (h.unknown _ hnx 0 (by decide)).2, (h.unknown _ hnx 1 (by decide)).2]
      simp [targets, newState, LabelInfo.new, List.getElem?_eq_none hx]
    · rw [valueOf_append _ hy]
      have hlt : valueOf s0.labels.length vars y < s.labels.length := by rw [h.len]; exact valueOf_lt hy
      have := h.tgt y hy
      simp only [targets, newState] at this ⊢
      rw [List.getElem?_append_left hlt]; exact this
  · intro y hy q hq
    have hk := h.unknown y (fun hc => hy (inScope_append hc)) q hq
    by_cases e' : q = p
    · subst e'; rw [setLog_same]; exact hk
    · rw [setLog_ne _ _ e']; exact hk

end

end Monoasm
