import Verif.Proofs.Resolve
/-
  What `fill_relocs` writes.
-/

set_option linter.unusedSimpArgs false

namespace Monoasm
open JitMemory Spec

/-- What is written in the field `t` of a label at address `src`; `contents` gives the addresses of
    the pages. -/
def slotBytes (contents : Page → Nat) (src : Nat) : TargetType → List Byte
  | .rel p off pos => littleEndian 4 (BitVec.ofInt 32 ((src : Int) - (contents p + pos + off.toNat : Nat))).toNat
  | .abs _ _ => littleEndian 8 (BitVec.ofNat 64 src).toNat

theorem slotBytes_length (contents src t) : (slotBytes contents src t).length = t.size := by
  cases t <;> simp [slotBytes, TargetType.size, littleEndian]

/-- Displacements that fit. -/
def FitsRel (contents : Page → Nat) (src : Nat) : TargetType → Prop
  | .rel p off pos => -2147483648 ≤ (src : Int) - (contents p + pos + off.toNat : Nat)
      ∧ (src : Int) - (contents p + pos + off.toNat : Nat) ≤ 2147483647
  | .abs _ _ => True

def fillMem (contents : Page → Nat) : List (Nat × TargetType) → (Nat → Byte) → (Nat → Byte)
  | [], mem => mem
  | j :: js, mem => fillMem contents js (putBytes mem (contents j.2.page + j.2.pos) (slotBytes contents j.1 j.2))

theorem fillMem_append (contents a b mem) : fillMem contents (a ++ b) mem = fillMem contents b (fillMem contents a mem) := by
  induction a generalizing mem with
  | nil => rfl
  | cons j js ih => exact ih _

def contentsOf (s : JitMemory) : Page → Nat := fun p => (s.pages p).contents

theorem writes_ok {p pos bs s s'} (hb : bs ≠ []) (h : writes p pos bs s = .ok () s') :
    pos + bs.length ≤ PAGE_SIZE ∧ s' = { s with mem := putBytes s.mem ((s.pages p).contents + pos) bs } := by
  rw [writes_run] at h
  split at h
  · rename_i hc
    cases h
    exact ⟨hc.resolve_right hb, rfl⟩
  · cases h

theorem fillTarget_ok {src t s s'} (h : fillTarget src t s = .ok () s') :
    Live t ∧ FitsRel (contentsOf s) src t
    ∧ s' = { s with mem := putBytes s.mem (contentsOf s t.page + t.pos) (slotBytes (contentsOf s) src t) } := by
  cases t with
  | rel p off pos =>
    simp only [fillTarget] at h
    rw [ok_bind (s1 := s) (by rfl)] at h
    simp only [i32TryFromInt] at h
    by_cases hr : -2147483648 ≤ (src : Int) - ((s.pages p).contents + pos + off.toNat : Nat)
        ∧ (src : Int) - ((s.pages p).contents + pos + off.toNat : Nat) ≤ 2147483647
    · rw [if_pos hr] at h
      simp only [write32_run] at h
      obtain ⟨h1, rfl⟩ := writes_ok (by simp [le32]) h
      refine ⟨h1, hr, ?_⟩
      simp only [slotBytes, littleEndian_32]; rfl
    · rw [if_neg hr] at h; cases h
  | abs p pos =>
    simp only [fillTarget, write64_run] at h
    obtain ⟨h1, rfl⟩ := writes_ok (by simp [le64]) h
    refine ⟨h1, trivial, ?_⟩
    simp only [slotBytes, littleEndian_64]; rfl

theorem fillTargets_ok {src ts s s'} (h : fillTargets src ts s = .ok () s') :
    (∀ t ∈ ts, Live t ∧ FitsRel (contentsOf s) src t)
    ∧ s' = { s with mem := fillMem (contentsOf s) (ts.map fun t => (src, t)) s.mem } := by
  induction ts generalizing s with
  | nil => cases h; exact ⟨by simp, rfl⟩
  | cons t ts ih =>
    simp only [fillTargets] at h
    obtain ⟨_, s1, h1, h2⟩ := bind_ok h
    obtain ⟨k1, k2, rfl⟩ := fillTarget_ok h1
    obtain ⟨k3, rfl⟩ := ih h2
    refine ⟨?_, rfl⟩
    intro t' ht'
    rcases List.mem_cons.1 ht' with rfl | ht'
    · exact ⟨k1, k2⟩
    · exact k3 t' ht'

/-- The fields `fill_relocs` fills, with the address each refers to. -/
def jobsOf (contents : Page → Nat) (i : LabelInfo) : List (Nat × TargetType) :=
  match i.loc with
  | some (p, c) => i.target.map fun t => (contents p + c, t)
  | none => []

theorem fillLabel_run {i r s s'} (h : fillLabel i s = .ok r s') :
    (∀ j ∈ jobsOf (contentsOf s) i, Live j.2 ∧ FitsRel (contentsOf s) j.1 j.2)
    ∧ s' = { s with mem := fillMem (contentsOf s) (jobsOf (contentsOf s) i) s.mem } := by
  simp only [fillLabel] at h
  cases e : i.loc with
  | none =>
    rw [e] at h
    cases h
    simp only [jobsOf, e]
    exact ⟨by simp, rfl⟩
  | some pc =>
    rw [e] at h
    simp only at h
    rw [ok_bind (s1 := s) (by rfl)] at h
    obtain ⟨_, s1, h1, h2⟩ := bind_ok h
    cases h2
    obtain ⟨k1, rfl⟩ := fillTargets_ok h1
    simp only [jobsOf, e]
    refine ⟨?_, rfl⟩
    intro j hj
    obtain ⟨t, ht, rfl⟩ := List.mem_map.1 hj
    exact k1 t ht

theorem fillLabels_run {is rs s s'} (h : fillLabels is s = .ok rs s') :
    (∀ j ∈ is.flatMap (jobsOf (contentsOf s)), Live j.2 ∧ FitsRel (contentsOf s) j.1 j.2)
    ∧ s' = { s with mem := fillMem (contentsOf s) (is.flatMap (jobsOf (contentsOf s))) s.mem } := by
  induction is generalizing s rs with
  | nil => cases h; exact ⟨by simp, rfl⟩
  | cons i is ih =>
    simp only [fillLabels] at h
    obtain ⟨_, s1, h1, h2⟩ := bind_ok h
    obtain ⟨_, s2, h2, h3⟩ := bind_ok h2
    cases h3
    obtain ⟨k1, rfl⟩ := fillLabel_run h1
    obtain ⟨k2, rfl⟩ := ih h2
    simp only [List.flatMap_cons, fillMem_append]
    refine ⟨?_, rfl⟩
    intro j hj
    rcases List.mem_append.1 hj with hj | hj
    · exact k1 j hj
    · exact k2 j hj

/-- All of them. -/
def jobs (s : JitMemory) : List (Nat × TargetType) := s.labels.flatMap (jobsOf (contentsOf s))

theorem fill_relocs_run {s s'} (h : fill_relocs s = .ok () s') :
    (∀ j ∈ jobs s, Live j.2 ∧ FitsRel (contentsOf s) j.1 j.2)
    ∧ s' = { s with labels := s.labels.map LabelInfo.filled, mem := fillMem (contentsOf s) (jobs s) s.mem } := by
  have hl := fill_relocs_labels h
  simp only [fill_relocs] at h
  rw [ok_bind (s1 := s) (by rfl)] at h
  obtain ⟨_, s1, h1, h⟩ := bind_ok h
  cases h1
  obtain ⟨rs, s2, h2, h3⟩ := bind_ok h
  cases h3
  obtain ⟨k1, rfl⟩ := fillLabels_run h2
  refine ⟨k1, ?_⟩
  simp only at hl
  rw [hl]
  rfl

theorem mem_jobs {s src t} : (src, t) ∈ jobs s ↔
    ∃ l p c, s.locOf l = some (p, c) ∧ t ∈ targets s l ∧ src = (s.pages p).contents + c := by
  simp only [jobs, List.mem_flatMap]
  constructor
  · rintro ⟨i, hi, hj⟩
    obtain ⟨l, hl⟩ := List.mem_iff_getElem?.1 hi
    simp only [jobsOf] at hj
    split at hj
    · rename_i p c e
      obtain ⟨t', ht', e'⟩ := List.mem_map.1 hj
      cases e'
      exact ⟨l, p, c, by simp [JitMemory.locOf, hl, e], by simp [targets, hl, ht'], rfl⟩
    · cases hj
  · rintro ⟨l, p, c, hl, ht, rfl⟩
    simp only [JitMemory.locOf, Option.bind_eq_some_iff] at hl
    obtain ⟨i, hi, e⟩ := hl
    refine ⟨i, List.mem_of_getElem? hi, ?_⟩
    simp only [jobsOf, e, List.mem_map, Prod.mk.injEq]
    simp only [targets, hi] at ht
    exact ⟨t, ht, rfl, rfl⟩

/-- Two fields do not overlap. -/
def Apart (t t' : TargetType) : Prop :=
  t.page ≠ t'.page ∨ t.pos + t.size ≤ t'.pos ∨ t'.pos + t'.size ≤ t.pos

theorem jobs_apart {s} (hs : Slots s) :
    (jobs s).Pairwise fun j j' => Live j.2 → Live j'.2 → Apart j.2 j'.2 := by
  simp only [jobs, List.pairwise_flatMap]
  have ht : ∀ (l : Nat) (h : l < s.labels.length), targets s l = s.labels[l].target := by
    intro l h; simp [targets, h]
  refine ⟨?_, ?_⟩
  · intro i hi
    obtain ⟨l, hl, rfl⟩ := List.mem_iff_getElem.1 hi
    simp only [jobsOf]
    split
    · rw [List.pairwise_map, List.pairwise_iff_getElem]
      intro a b ha hb hab v1 v2
      refine hs.apart l l a b _ _ ?_ ?_ (.inr (by omega)) v1 v2
      · rw [ht l hl]; exact List.getElem?_eq_getElem ha
      · rw [ht l hl]; exact List.getElem?_eq_getElem hb
    · exact .nil
  · rw [List.pairwise_iff_getElem]
    intro a b ha hb hab x hx y hy v1 v2
    have get : ∀ (l : Nat) (h : l < s.labels.length) z, z ∈ jobsOf (contentsOf s) s.labels[l] →
        ∃ i : Nat, (targets s l)[i]? = some z.2 := by
      intro l h z hz
      simp only [jobsOf] at hz
      split at hz
      · obtain ⟨t, h', rfl⟩ := List.mem_map.1 hz
        rw [ht l h]
        exact List.mem_iff_getElem?.1 h'
      · cases hz
    obtain ⟨i, hi⟩ := get a ha x hx
    obtain ⟨i', hi'⟩ := get b hb y hy
    exact hs.apart a b i i' _ _ hi hi' (.inl (by omega)) v1 v2

section
variable {base : Nat}

/-- An address outside all the fields filled keeps its byte. -/
theorem fillMem_out (contents : Page → Nat) (js : List (Nat × TargetType)) (mem a)
    (h : ∀ j ∈ js, a < contents j.2.page + j.2.pos ∨ contents j.2.page + j.2.pos + j.2.size ≤ a) :
    fillMem contents js mem a = mem a := by
  induction js generalizing mem with
  | nil => rfl
  | cons j js ih =>
    rw [fillMem, ih _ fun j' hj' => h j' (List.mem_cons_of_mem _ hj'), putBytes_out]
    rw [slotBytes_length]
    exact h j List.mem_cons_self

/-- Every field filled holds its value. -/
theorem fillMem_in {s : JitMemory} (hi : Inv base s) (js : List (Nat × TargetType)) (mem)
    (hl : ∀ j ∈ js, Live j.2)
    (hp : js.Pairwise fun j j' => Live j.2 → Live j'.2 → Apart j.2 j'.2) (j) (hj : j ∈ js) :
    bytes (fillMem (contentsOf s) js mem) (contentsOf s j.2.page + j.2.pos) j.2.size = slotBytes (contentsOf s) j.1 j.2 := by
  induction js generalizing mem with
  | nil => cases hj
  | cons j' js ih =>
    rw [List.pairwise_cons] at hp
    rcases List.mem_cons.1 hj with rfl | hj
    · rw [fillMem, bytes_eq_bytesAt, ← slotBytes_length (contentsOf s) j.1 j.2, bytesAt_eq_iff]
      intro i hi'
      rw [fillMem_out, putBytes_in _ hi']
      intro j'' hj''
      have h1 := hp.1 j'' hj'' (hl j List.mem_cons_self) (hl j'' (List.mem_cons_of_mem _ hj''))
      have h2 := hl j List.mem_cons_self
      have h3 := hl j'' (List.mem_cons_of_mem _ hj'')
      rw [slotBytes_length] at hi'
      simp only [contentsOf, hi.contents]
      simp only [Apart, Live] at h1 h2 h3
      have key : ∀ (p q : Nat) (a b n m : Nat), p ≠ q ∨ a + n ≤ b ∨ b + m ≤ a → a + n ≤ PAGE_SIZE → b + m ≤ PAGE_SIZE →
          i < n → base + PAGE_SIZE * p + a + i < base + PAGE_SIZE * q + b ∨ base + PAGE_SIZE * q + b + m ≤ base + PAGE_SIZE * p + a + i := by
        intro p q a b n m k1 k2 k3 k4
        rw [PAGE_SIZE_eq] at *
        omega
      exact key _ _ _ _ _ _ h1 h2 h3 hi'
    · exact ih _ (fun j hj => hl j (List.mem_cons_of_mem _ hj)) hp.2 hj

/-- Effect of `fill_relocs`. -/
structure Filled (s s' : JitMemory) : Prop where
  pages : s'.pages = s.pages
  page : s'.page = s.page
  labels : s'.labels = s.labels.map LabelInfo.filled
  /-- every field of a bound label holds its value -/
  fields : ∀ l p c t, s.locOf l = some (p, c) → t ∈ targets s l → Live t ∧
    FitsRel (contentsOf s) ((s.pages p).contents + c) t ∧
    Spec.bytes s'.mem ((s.pages t.page).contents + t.pos) t.size = slotBytes (contentsOf s) ((s.pages p).contents + c) t
  /-- all other bytes are unchanged -/
  frame : ∀ a, (∀ l t, s.locOf l ≠ none → t ∈ targets s l → a < (s.pages t.page).contents + t.pos
    ∨ (s.pages t.page).contents + t.pos + t.size ≤ a) → s'.mem a = s.mem a

theorem fill_ok {s s' : JitMemory} (hi : Inv base s) (hs : Slots s) (h : fill_relocs s = .ok () s') : Filled s s' := by
  obtain ⟨k, rfl⟩ := fill_relocs_run h
  refine ⟨rfl, rfl, rfl, ?_, ?_⟩
  · intro l p c t hl ht
    have hj : ((s.pages p).contents + c, t) ∈ jobs s := mem_jobs.2 ⟨l, p, c, hl, ht, rfl⟩
    exact ⟨(k _ hj).1, (k _ hj).2, fillMem_in hi (jobs s) s.mem (fun j hj => (k j hj).1) (jobs_apart hs) _ hj⟩
  · intro a ha
    refine fillMem_out _ _ _ _ ?_
    rintro ⟨src, t⟩ hj
    obtain ⟨l, p, c, hl, ht, rfl⟩ := mem_jobs.1 hj
    exact ha l t (by rw [hl]; simp) ht

theorem Filled.locOf {s s'} (h : Filled s s') (l) : s'.locOf l = s.locOf l := by
  simp only [JitMemory.locOf, h.labels, List.getElem?_map]
  cases s.labels[l]? with
  | none => rfl
  | some i => simp [filled_loc]

theorem Filled.targets {s s'} (h : Filled s s') (l) :
    Spec.targets s' l = if s.locOf l = none then Spec.targets s l else [] := by
  have e1 : s'.labels[l]? = (s.labels[l]?).map LabelInfo.filled := by rw [h.labels, List.getElem?_map]
  rcases Option.eq_none_or_eq_some (s.labels[l]?) with e | ⟨i, e⟩
  · rw [e] at e1
    simp only [Option.map_none] at e1
    simp [Spec.targets, JitMemory.locOf, e, e1]
  · rw [e] at e1
    simp only [Option.map_some, LabelInfo.filled] at e1
    cases e' : i.loc <;> simp [Spec.targets, JitMemory.locOf, e, e1, e']

theorem Filled.mem_targets {s s'} (h : Filled s s') {l t} (ht : t ∈ Spec.targets s' l) : t ∈ Spec.targets s l := by
  rw [h.targets] at ht
  split at ht
  · exact ht
  · cases ht

theorem Filled.slots {s s'} (h : Filled s s') (hs : Slots s) : Slots s' := by
  refine ⟨?_, ?_, fun l t ht => by simpa only [cursor, h.pages] using hs.low l t (h.mem_targets ht),
    fun l t ht => hs.aligned l t (h.mem_targets ht),
    fun l l' t u h1 h2 => hs.dead l l' t u (h.mem_targets h1) (h.mem_targets h2)⟩
  · intro l t ht hl
    have := hs.inside l t (h.mem_targets ht) hl
    simpa only [cursor, h.pages] using this
  · intro l l' i i' t t' h1 h2
    rw [h.targets] at h1 h2
    split at h1 <;> split at h2
    · exact hs.apart l l' i i' t t' h1 h2
    all_goals simp at h1 h2

/-- A settled byte is not changed. -/
theorem Filled.settled {s s'} (hi : Inv base s) (h : Filled s s') {p pos} (hp : Settled s p pos) :
    Settled s' p pos ∧ byteAt s' p pos = byteAt s p pos := by
  refine ⟨⟨?_, ?_⟩, ?_⟩
  · have := hp.1; simpa only [cursor, h.pages] using this
  · intro l t ht hl
    exact hp.2 l t (h.mem_targets ht) hl
  · simp only [byteAt, h.pages]
    apply h.frame
    intro l t hl ht
    cases e : s.locOf l with
    | none => exact absurd e hl
    | some pc =>
      have live := (h.fields l pc.1 pc.2 t e ht).1
      have := hp.2 l t ht live
      have h1 : pos < PAGE_SIZE := Nat.lt_of_lt_of_le hp.1 (hi.counter p)
      simp only [Covers] at this
      simp only [Live] at live
      rw [hi.contents, hi.contents]
      have key : ∀ (p q : Nat) (a n : Nat), ¬ (q = p ∧ a ≤ pos ∧ pos < a + n) → a + n ≤ PAGE_SIZE →
          base + PAGE_SIZE * p + pos < base + PAGE_SIZE * q + a ∨ base + PAGE_SIZE * q + a + n ≤ base + PAGE_SIZE * p + pos := by
        intro p q a n k1 k2
        rw [PAGE_SIZE_eq] at *
        omega
      exact key _ _ _ _ this live

end
end Monoasm
