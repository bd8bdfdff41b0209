import Verif.Spec.Listing
import Verif.Proofs.Correct
/-
  Sequences of statements.
-/

namespace Monoasm
open Spec

theorem ok_of_bind {m : M Unit} {k : M Unit} {s s'} (h : (do m; k) s = .ok () s') :
    ∃ s1, m s = .ok () s1 ∧ k s1 = .ok () s' := by
  rw [M.bind_def] at h
  cases hm : m s with
  | ok a s1 => rw [hm] at h; exact ⟨s1, rfl, h⟩
  | panic e s1 => rw [hm] at h; cases h

theorem runsAll_nil {s s'} : RunsAll [] s s' ↔ s' = s := by
  constructor
  · rintro ⟨m, h1, h2⟩
    cases h1
    cases h2; rfl
  · rintro rfl; exact ⟨_, rfl, rfl⟩

theorem runsAll_cons {i is s s'} : RunsAll (i :: is) s s' ↔ ∃ s1, Runs i s s1 ∧ RunsAll is s1 s' := by
  constructor
  · rintro ⟨m, h1, h2⟩
    simp only [compileAll] at h1
    cases hi : compile i with
    | error e => rw [hi] at h1; cases h1
    | ok mi =>
      cases his : compileAll is with
      | error e => rw [hi, his] at h1; cases h1
      | ok ms =>
        rw [hi, his] at h1
        cases h1
        obtain ⟨s1, h3, h4⟩ := ok_of_bind h2
        exact ⟨s1, ⟨mi, hi, h3⟩, ms, his, h4⟩
  · rintro ⟨s1, ⟨mi, hi, h3⟩, ms, his, h4⟩
    refine ⟨do mi; ms, by simp only [compileAll, hi, his], ?_⟩
    rw [M.bind_def, h3]; exact h4

theorem runsAll_ran {is s s'} (h : RunsAll is s s') : ∃ its, Ran s its s' := by
  induction is generalizing s with
  | nil => rw [runsAll_nil] at h; subst h; exact ⟨[], ran_nil _⟩
  | cons i is ih =>
    obtain ⟨s1, h1, h2⟩ := runsAll_cons.1 h
    obtain ⟨a, _, ha⟩ := runs_items h1
    obtain ⟨b, hb⟩ := ih h2
    exact ⟨a ++ b, ha.trans hb⟩

/-- The slots of a run lie in the range written. -/
theorem slot_range {s its s'} (h : Ran s its s') {l p off pos} (ht : TargetType.rel p off pos ∈ added s s' l) :
    p = s.page ∧ here s ≤ (s.pages p).contents + pos ∧ (s.pages p).contents + pos + 4 ≤ here s' := by
  rw [ran_added h] at ht
  obtain ⟨pre, off', post, e, h2⟩ := mem_relsOf ht
  cases h2
  rw [h.here, e]
  simp only [here, lenOf_append, lenOf_cons, Item.len, true_and]
  omega

theorem added_trans {s a s1 b s2} (h1 : Ran s a s1) (h2 : Ran s1 b s2) (l) :
    added s s2 l = added s s1 l ++ added s1 s2 l := by
  simp only [added, h2.targets, h1.targets]
  simp

theorem linked_split {s a s1 b s2 la mem} (h1 : Ran s a s1) (h2 : Ran s1 b s2) (hl : Linked s s2 la mem) :
    Linked s s1 la mem ∧ Linked s1 s2 la mem := by
  have hadd := added_trans h1 h2
  have e1 := h1.here
  have e2 := h2.here
  refine ⟨⟨fun l p off pos h => hl.slot l p off pos (by rw [hadd]; simp [h]), fun x hx1 hx2 hx => ?_⟩,
    ⟨fun l p off pos h => ?_, fun x hx1 hx2 hx => ?_⟩⟩
  · rw [hl.code x hx1 (by omega), h2.mem, putBytes_out _ (by left; exact hx2)]
    intro l p off pos ht
    rw [hadd] at ht
    rcases List.mem_append.1 ht with ht | ht
    · exact hx l p off pos ht
    · have := slot_range h2 ht
      rw [h1.contents] at this
      left; omega
  · rw [h1.contents]
    exact hl.slot l p off pos (by rw [hadd]; simp [h])
  · refine hl.code x (by omega) hx2 fun l p off pos ht => ?_
    rw [hadd] at ht
    rcases List.mem_append.1 ht with ht | ht
    · have := slot_range h1 ht
      right; omega
    · have := hx l p off pos ht
      rwa [h1.contents] at this

theorem bytes_split (mem : Nat → Byte) (a m n : Nat) : bytes mem a (m + n) = bytes mem a m ++ bytes mem (a + m) n := by
  simp only [bytes_eq_bytesAt]
  exact bytesAt_add ..

theorem bytes_len (mem : Nat → Byte) (a n : Nat) : (bytes mem a n).length = n := by simp [bytes]

/-- Meaning is defined for all label addresses, or none. -/
theorem valid_meaning {i} (h : Valid i) (rel) : ∃ I, meaning rel i = some I := by
  obtain ⟨rel', I, h⟩ := h
  have := meaning_indep rel rel' i
  rw [h] at this
  exact Option.isSome_iff_exists.1 this

theorem dist_pred (la : Nat → Nat) {e : Nat} (h : 0 < e) : dist la (e - 1) = fun l => dist la e l + 1 := by
  funext l
  simp only [dist]
  rw [show ((la l : Int) - ((e - 1 : Nat) : Int)) = ((la l : Int) - (e : Int)) + 1 by omega, BitVec.ofInt_add]
  rfl

/-- Every statement is encoded as `encoded` says. -/
theorem decode_encoded {i s s' la mem I} (h : Runs i s s') (hl : Linked s s' la mem)
    (hn : ∀ x, here s ≤ x → x ≤ here s' → Near la x) (hM : encoded (dist la (here s')) i = some I) (rest) :
    X86.decode (bytes mem (here s) (here s' - here s) ++ rest) = some (I, rest) := by
  by_cases hR : ∃ a b m, i = .Roundpd a b m
  · obtain ⟨a, b, m, rfl⟩ := hR
    have hpos : here s < here s' := by
      obtain ⟨its, hi, hr⟩ := runs_items h
      have := hr.here
      cases hi
      simp [Item.len] at this
      omega
    refine decode_round h hl (hn _ (by omega) (by omega)) ?_ rest
    rw [dist_pred la (by omega)]
    exact hM
  · obtain ⟨its, hi, hran⟩ := runs_items h
    refine decode_linked hi hran (slotsOk_items hi fun a b m e => hR ⟨a, b, m, e⟩) hl (hn _ (runs_here h).1 (Nat.le_refl _)) ?_ rest
    cases i <;> first | exact hM | (exact absurd ⟨_, _, _, rfl⟩ hR)

theorem ordinary_encoded {i} (h : Ordinary i) (rel) : meaning rel i = encoded rel i := by
  by_cases hR : ∃ a b m, i = .Roundpd a b m
  · obtain ⟨a, b, m, rfl⟩ := hR
    have hb := h.round a b m rfl
    simp only [encoded, meaning, sse]
    cases b with
    | xmm x => rfl
    | ind x =>
      obtain ⟨b, sc, d⟩ := x
      cases d with
      | label l => simp [XmOperand.labels, IndAddr.labels, MDisp.labels] at hb
      | imm d => rfl
      | expr n e => cases n <;> rfl
  · by_cases hC : ∃ a b, i = .Cvttsd2siq a b
    · obtain ⟨a, b, rfl⟩ := hC
      exact absurd rfl (h.cvtt a b)
    · cases i <;> first | rfl | (exact absurd ⟨_, _, _, rfl⟩ hR) | (exact absurd ⟨_, _, rfl⟩ hC)

theorem encoded_some {i} (h : Valid i) (rel) : ∃ I, encoded rel i = some I := by
  obtain ⟨I, hI⟩ := valid_meaning h rel
  by_cases hR : ∃ a b m, i = .Roundpd a b m
  · obtain ⟨a, b, m, rfl⟩ := hR
    exact valid_meaning h _
  · by_cases hC : ∃ a b, i = .Cvttsd2siq a b
    · obtain ⟨a, b, rfl⟩ := hC
      simp only [meaning, Option.bind_eq_bind, Option.bind_eq_some_iff] at hI
      obtain ⟨g, h1, x, h2, -⟩ := hI
      exact ⟨_, by simp only [encoded, h1, h2]; rfl⟩
    · exact ⟨I, by cases i <;> first | exact hI | (exact absurd ⟨_, _, _, rfl⟩ hR) | (exact absurd ⟨_, _, rfl⟩ hC)⟩

theorem ordinary_faithful {i} (h : Ordinary i) : Faithful i := by
  by_cases hR : ∃ a b m, i = .Roundpd a b m
  · obtain ⟨a, b, m, rfl⟩ := hR
    exact faithful_round (h.round a b m rfl)
  · exact faithful i (fun a b m e => hR ⟨a, b, m, e⟩) h.cvtt

theorem bytes64_eq (v : BitVec 64) : bytes64 v = le64 v := by
  rfl

/-- Disassembly, given the instructions of the single statements; `f i` is the text shown for `i`. -/
theorem listing_map {M : Reading} {f : Inst Val Nat → Inst Val Nat} {is s s' la mem} (hr : RunsAll is s s')
    (ho : ∀ i ∈ is, (∀ s s', Runs i s s' → Linked s s' la mem → (∀ x, here s ≤ x → x ≤ here s' → Near la x) →
        ∃ I, M (dist la (here s')) (f i) = some I
          ∧ ∀ rest, X86.decode (bytes mem (here s) (here s' - here s) ++ rest) = some (I, rest))
      ∨ (∃ l, i = .Label l ∧ f i = .Label l) ∨ (∃ v, i = .I64 v ∧ f i = .I64 v) ∨ ∃ v, i = .F64 v ∧ f i = .F64 v)
    (hl : Linked s s' la mem) (hn : ∀ x, here s ≤ x → x ≤ here s' → Near la x) (tail : List Byte) :
    Listing M la (here s) (bytes mem (here s) (here s' - here s) ++ tail) (is.map f) tail := by
  induction is generalizing s with
  | nil =>
    rw [runsAll_nil] at hr; subst hr
    simpa [bytes] using Listing.nil (M := M) (la := la) (here s') tail
  | cons i is ih =>
    obtain ⟨s1, h1, h2⟩ := runsAll_cons.1 hr
    obtain ⟨a, hi, ha⟩ := runs_items h1
    obtain ⟨b, hb⟩ := runsAll_ran h2
    obtain ⟨hl1, hl2⟩ := linked_split ha hb hl
    have e1 := ha.here
    have e2 := hb.here
    have IH := ih h2 (fun j hj => ho j (List.mem_cons_of_mem _ hj)) hl2 (fun x hx1 hx2 => hn x (by omega) hx2)
    have hs : bytes mem (here s) (here s' - here s) ++ tail
        = bytes mem (here s) (here s1 - here s) ++ (bytes mem (here s1) (here s' - here s1) ++ tail) := by
      have : here s' - here s = (here s1 - here s) + (here s' - here s1) := by omega
      rw [this, bytes_split, List.append_assoc]
      congr 3; omega
    have hplain : ∀ its, a = its → (∀ l off, Item.rel l off ∉ its) → 
        bytes mem (here s) (here s1 - here s) = bytesOf (fun _ => 0) its := by
      rintro its rfl hno
      have := linked_vals (ψ := fun _ => 0) ha hl1 (by
        intro pre l off post e; exact absurd (by rw [e]; simp) (hno l off))
      rw [← this]; congr 1; omega
    rw [hs, List.map_cons]
    rcases ho i (by simp) with hv | ⟨l, rfl, hf⟩ | ⟨v, rfl, hf⟩ | ⟨v, rfl, hf⟩
    · obtain ⟨I, hM', hd⟩ := hv s s1 h1 hl1 (fun x hx1 hx2 => hn x hx1 (by omega))
      have e3 : here s1 = here s + (here s1 - here s) := by omega
      refine Listing.inst (here s1 - here s) (hd (bytes mem (here s1) (here s' - here s1) ++ tail)) (by simp only [List.length_append, bytes_len]) ?_ ?_
      · rw [← e3]; exact hM'
      · rw [← e3]; exact IH
    · cases hi
      rw [hf]
      have e0 : here s1 = here s := by simpa [Item.len] using e1
      rw [e0] at IH ⊢
      simpa [bytes] using Listing.label l IH
    · cases hi
      rw [hf]
      rw [hplain _ rfl (by simp)]
      have e8 : here s1 = here s + 8 := by simpa [Item.len] using e1
      rw [e8] at IH ⊢
      simpa [Item.bytes, littleEndian_64] using Listing.i64 v IH
    · cases hi
      rw [hf]
      rw [hplain _ rfl (by simp)]
      have e8 : here s1 = here s + 8 := by simpa [Item.len, bytes64] using e1
      rw [e8] at IH ⊢
      have := Listing.f64 v IH
      rw [littleEndian_64, ← bytes64_eq] at this
      have e9 : bytesOf (fun _ => 0) ((bytes64 v).map Item.i8) = bytes64 v := by
        simp [bytesOf_map_i8]
      rw [e9]; exact this

theorem listing {M : Reading} {is s s' la mem} (hr : RunsAll is s s') (ho : ∀ i ∈ is, Meaningful i)
    (hM : ∀ i ∈ is, ∀ rel, M rel i = encoded rel i) (hl : Linked s s' la mem)
    (hn : ∀ x, here s ≤ x → x ≤ here s' → Near la x) (tail : List Byte) :
    Listing M la (here s) (bytes mem (here s) (here s' - here s) ++ tail) is tail := by
  have := listing_map (M := M) (f := id) hr (fun i hi => ?_) hl hn tail
  · rwa [List.map_id] at this
  · rcases ho i hi with hv | ⟨l, rfl⟩ | ⟨v, rfl⟩ | ⟨v, rfl⟩
    · refine .inl fun s s' h hl hn => ?_
      obtain ⟨I, hI⟩ := encoded_some hv (dist la (here s'))
      exact ⟨I, (hM i hi _).trans hI, decode_encoded h hl hn hI⟩
    · exact .inr (.inl ⟨l, rfl, rfl⟩)
    · exact .inr (.inr (.inl ⟨v, rfl, rfl⟩))
    · exact .inr (.inr (.inr ⟨v, rfl, rfl⟩))

theorem listing_read {M N : Reading} {la a bs is rest} (h : ∀ i ∈ is, ∀ rel, M rel i = N rel i) (hL : Listing N la a bs is rest) :
    Listing M la a bs is rest := by
  induction hL with
  | nil a bs => exact .nil a bs
  | label l _ ih => exact .label l (ih fun i hi => h i (List.mem_cons_of_mem _ hi))
  | i64 v _ ih => exact .i64 v (ih fun i hi => h i (List.mem_cons_of_mem _ hi))
  | f64 v _ ih => exact .f64 v (ih fun i hi => h i (List.mem_cons_of_mem _ hi))
  | inst n h1 h2 h3 _ ih =>
    exact .inst n h1 h2 ((h _ (by simp) _).trans h3) (ih fun i hi => h i (List.mem_cons_of_mem _ hi))

theorem addr_label {b sc l rel A} (h : addr rel ⟨b, sc, .label l⟩ = some A) (rel') :
    addr rel' ⟨b, sc, .label l⟩ = some { A with disp := rel' l } := by
  cases sc with
  | none =>
    simp only [addr] at h ⊢
    split at h
    · rename_i e
      rw [if_pos e]
      cases h; rfl
    · rename_i e
      rw [if_neg e]
      simp only [Option.bind_eq_bind, Option.bind_eq_some_iff] at h
      obtain ⟨g, h1, h2⟩ := h
      cases h2
      simp [h1, disp]
  | s1 c i =>
    simp only [addr, Option.bind_eq_bind, Option.bind_eq_some_iff] at h ⊢
    obtain ⟨g, h1, x, h2, h3⟩ := h
    refine ⟨g, h1, x, h2, ?_⟩
    split at h3
    · cases h3
    · split at h3
      · rename_i e1 e2
        rw [if_neg e1, if_pos e2]
        cases h3
        rfl
      · cases h3

theorem as_written_ordinary {i : Inst Val Nat} (h : Meaningful i) (hw : ∀ rel, meaning rel i = encoded rel i) : Ordinary i := by
  refine ⟨h, ?_, ?_⟩
  · rintro a b m rfl
    rcases h with hv | ⟨l, h⟩ | ⟨v, h⟩ | ⟨v, h⟩ <;> try cases h
    obtain ⟨rel', I, hI⟩ := hv
    simp only [meaning, sse, Option.bind_eq_bind, Option.bind_eq_some_iff] at hI
    obtain ⟨g, h1, x, h2, -⟩ := hI
    have h3 := hw rel'
    cases b with
    | xmm x => rfl
    | ind p =>
      obtain ⟨b, sc, d⟩ := p
      cases d with
      | imm d => rfl
      | expr n e => rfl
      | label l =>
        exfalso
        simp only [xm, Option.bind_eq_bind, Option.bind_eq_some_iff] at h2
        obtain ⟨A, h2, -⟩ := h2
        have e1 := addr_label h2 rel'
        have e2 := addr_label h2 fun l => rel' l + 1
        simp only [meaning, encoded, sse, h1, xm, e1, e2, Option.bind_eq_bind, Option.bind_some, pure, Option.some.injEq,
          X86.Instr.round.injEq, X86.Opd.mem.injEq, X86.Addr.mk.injEq, true_and, and_true] at h3
        have h4 : rel' l - rel' l = (1 + rel' l) - rel' l := by rw [BitVec.add_comm 1]; exact congrArg (· - rel' l) h3
        rw [BitVec.sub_self, BitVec.add_sub_cancel] at h4
        exact absurd h4 (by decide)
  · rintro a b rfl
    rcases h with hv | ⟨l, h⟩ | ⟨v, h⟩ | ⟨v, h⟩ <;> try cases h
    obtain ⟨rel', I, hI⟩ := hv
    simp only [meaning, Option.bind_eq_bind, Option.bind_eq_some_iff] at hI
    obtain ⟨g, h1, x, h2, -⟩ := hI
    have h3 := hw rel'
    simp [meaning, encoded, h1, h2] at h3

/-! ### The hypotheses can be met -/

theorem bytes_congr {m1 m2 : Nat → Byte} {a n} (h : ∀ x, a ≤ x → x < a + n → m1 x = m2 x) : bytes m1 a n = bytes m2 a n := by
  simp only [bytes]
  exact List.map_congr_left fun k hk => h _ (by omega) (by have := List.mem_range.1 hk; omega)

theorem linked_join {s a s1 b s2 la m1 m2} (h1 : Ran s a s1) (h2 : Ran s1 b s2) (hl1 : Linked s s1 la m1)
    (hl2 : Linked s1 s2 la m2) : Linked s s2 la (fun x => if x < here s1 then m1 x else m2 x) := by
  have hadd := added_trans h1 h2
  have e1 := h1.here
  have e2 := h2.here
  refine ⟨fun l p off pos h => ?_, fun x hx1 hx2 hx => ?_⟩
  · rw [hadd] at h
    rcases List.mem_append.1 h with h | h
    · have := slot_range h1 h
      rw [← hl1.slot l p off pos h]
      exact bytes_congr fun x _ _ => if_pos (by omega)
    · have := slot_range h2 h
      have h3 := hl2.slot l p off pos h
      rw [h1.contents] at this h3
      rw [← h3]
      exact bytes_congr fun x _ _ => if_neg (by omega)
  · split
    · rename_i hlt
      rw [hl1.code x hx1 hlt fun l p off pos h => hx l p off pos (by rw [hadd]; simp [h]),
        h2.mem, putBytes_out _ (by left; exact hlt)]
    · exact hl2.code x (by omega) hx2 fun l p off pos h => by
        rw [h1.contents]; exact hx l p off pos (by rw [hadd]; simp [h])

theorem linkableAll {is s s'} (h : RunsAll is s s') (la) : ∃ mem, Linked s s' la mem := by
  induction is generalizing s with
  | nil =>
    rw [runsAll_nil] at h; subst h
    exact ⟨s'.mem, fun l p off pos h => by simp [added] at h, fun _ _ _ _ => rfl⟩
  | cons i is ih =>
    obtain ⟨s1, h1, h2⟩ := runsAll_cons.1 h
    obtain ⟨m1, hm1⟩ := linkable h1 la
    obtain ⟨m2, hm2⟩ := ih h2
    obtain ⟨_, _, r1⟩ := runs_items h1
    obtain ⟨_, r2⟩ := runsAll_ran h2
    exact ⟨_, linked_join r1 r2 hm1 hm2⟩

theorem runsAll_here {is s s'} (h : RunsAll is s s') : here s ≤ here s' ∧ here s' ≤ here s + 12 * is.length := by
  induction is generalizing s with
  | nil => rw [runsAll_nil] at h; subst h; simp
  | cons i is ih =>
    obtain ⟨s1, h1, h2⟩ := runsAll_cons.1 h
    have := ih h2
    have := runs_here h1
    simp only [List.length_cons]
    omega

theorem meaningful_runs {i s} (ho : Meaningful i) (ha : Accepted i) (hi : ImmOk i) (hk : Known s i) (hr : Room s) :
    ∃ s', Runs i s s' := by
  rcases ho with ⟨rel, I, hM⟩ | ⟨l, rfl⟩ | ⟨v, rfl⟩ | ⟨v, rfl⟩
  · exact assembles ha hM hi hk hr
  · obtain ⟨s', h⟩ := runItems_total (its := [.bind l]) (s := s) (by simp) (by simp)
      (by intro l' h; exact hk l' (by simp at h; simp [Inst.mentions, Inst.labels, h])) (by
        have : (s.pages s.page).counter + 12 ≤ PAGE_SIZE := hr
        simp only [lenOf_cons, lenOf_nil, Item.len]; omega)
    exact ⟨s', runs_of_items rfl h⟩
  · obtain ⟨s', h⟩ := runItems_total (its := [.i64 v]) (s := s) (by simp) (by simp) (by simp) (by
        have : (s.pages s.page).counter + 12 ≤ PAGE_SIZE := hr
        simp only [lenOf_cons, lenOf_nil, Item.len]; omega)
    exact ⟨s', runs_of_items rfl h⟩
  · obtain ⟨s', h⟩ := runItems_total (its := (bytes64 v).map .i8) (s := s) (by intro e; simp) (by simp) (by simp) (by
        have : (s.pages s.page).counter + 12 ≤ PAGE_SIZE := hr
        simp [bytes64, Item.len]; omega)
    exact ⟨s', runs_of_items rfl h⟩

theorem meaningful_runsAll {is s} (ho : ∀ i ∈ is, Meaningful i) (ha : ∀ i ∈ is, Accepted i) (hi : ∀ i ∈ is, ImmOk i)
    (hk : ∀ i ∈ is, Known s i) (hr : cursor s s.page + 12 * is.length ≤ PAGE_SIZE) : ∃ s', RunsAll is s s' := by
  induction is generalizing s with
  | nil => exact ⟨s, runsAll_nil.2 rfl⟩
  | cons i is ih =>
    simp only [List.length_cons] at hr
    obtain ⟨s1, h1⟩ := meaningful_runs (s := s) (ho i (by simp)) (ha i (by simp)) (hi i (by simp)) (hk i (by simp))
      (show cursor s s.page + 12 ≤ PAGE_SIZE by omega)
    obtain ⟨its, hits, r⟩ := runs_items h1
    have hlen := items_len hits
    obtain ⟨s', h2⟩ := ih (s := s1) (fun j hj => ho j (by simp [hj])) (fun j hj => ha j (by simp [hj]))
      (fun j hj => hi j (by simp [hj])) (fun j hj l hl => by rw [r.len]; exact hk j (by simp [hj]) l hl) (by
        simp only [cursor] at hr ⊢
        rw [r.page, r.pages]; simp; omega)
    exact ⟨s', runsAll_cons.2 ⟨s1, h1, h2⟩⟩

end Monoasm
