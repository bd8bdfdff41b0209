import Verif.Spec.Retarget
import Verif.Proofs.Patch
import Verif.Proofs.Exec
/-
  Helper lemmas for C57.
-/

namespace Monoasm
open Spec X86 JitMemory

variable {base : Nat} {mem : Nat → Monoasm.Byte} {H : List Op} {n m k : Nat} {i : Inst Val Nat} {l d : DestLabel} {s : JitMemory}

theorem settled_keep {op : Op} (hi : HInv base s) (hr : ∀ l off, op ≠ .save_reloc l off)
    (hf : op = .finalize → (finalize s).state.labels.length = s.labels.length) {p pos} (hs : Settled s p pos) : Settled (op.run s).state p pos := by
  rcases op_cases op hr with ha | hp | rfl
  · exact (settled_grow hs (Grows.op ha s hi.inv).2).1
  · obtain ⟨m, e, -⟩ := pokes_state hp s
    rw [e]
    exact ⟨hs.1, hs.2⟩
  · rcases finalize_cases hi (hf rfl) with ⟨s', e, f⟩ | ⟨er, s', e, u⟩
    · simp only [Op.run, e, Res.state_ok]
      exact (f.settled p pos hs).1
    · simp only [Op.run, e, Res.state_panic]
      exact (u.settled hs).1

theorem settled_kept {h : List Op} (hi : HInv base s) (hr : NoRaw h) (hf : KeepsLabels s h)
    {p pos} (hs : Settled s p pos) : Settled (runCaught h s) p pos :=
  along_induct (P := fun s1 => Settled s1 p pos) (fun _ _ h1 h2 h3 _ h5 => settled_keep h1 h2 h3 h5) hi hr hf along_true hs

/-- A field is pending or settled. -/
theorem pending_or_settled {h : List Op} (hA : Alloc base) (hi : HInv base s) (hr : NoRaw h) (hf : KeepsLabels s h) {t}
    (ht : t ∈ targets s l) : t ∈ targets (runCaught h s) l ∨ ∀ pos, Covers t t.page pos → Settled (runCaught h s) t.page pos :=
  along_induct (P := fun s1 => t ∈ targets s1 l ∨ ∀ pos, Covers t t.page pos → Settled s1 t.page pos) (fun _ _ h1 h2 h3 _ h5 => by
    rcases h5 with h | h
    · rcases pend_op hA h1 h2 h3 h with h | h
      · exact .inl h
      · exact .inr h.settled
    · exact .inr fun pos hc => settled_keep h1 h2 h3 (h pos hc)) hi hr hf along_true (.inl ht)

/-- After the `finalize` at which its label is bound it is settled. -/
theorem settled_fin {h2 h3 : List Op} {s'} (hA : Alloc base) (hi : HInv base s) (hr : NoRaw (h2 ++ .finalize :: h3))
    (hf : KeepsLabels s (h2 ++ .finalize :: h3)) {t} (ht : t ∈ targets s l) (hfin : finalize (runCaught h2 s) = .ok () s')
    {a} (hb : HasAddress s' l a) {pos} (hc : Covers t t.page pos) : Settled (runCaught (h2 ++ .finalize :: h3) s) t.page pos := by
  rw [caught_fin hfin]
  have hr' := noRaw_append.1 hr
  obtain ⟨hf2, hf3⟩ := keepsLabels_fin hfin hf
  have hi2 := hinv_caught hi hr'.1
  refine settled_kept (hinv_fin hi2 hfin) (noRaw_cons.1 hr'.2).2 hf3 ?_
  have f := finalize_hinv hi2 hfin
  rcases pending_or_settled hA hi hr'.1 hf2 ht with h | h
  · obtain ⟨q, c, hl, -⟩ := (hasAddress_iff f.inv hA.pos).1 hb
    exact f.filled l _ (by rw [hl]; simp) h pos hc
  · exact (f.settled _ _ (h pos hc)).1

def opcodeOf : Inst Val Nat → Monoasm.Byte
  | .Jmp _ => 0xe9
  | _ => 0xe8

/-- The state after a jump or call was assembled. -/
theorem patchable_runs {s1} (hi : HInv base s) (hp : Patchable i l) (h : Runs i s s1) :
    here s1 = here s + 5 ∧ s1.mem (here s) = opcodeOf i ∧ here s = addrOf base s.page (cursor s s.page)
    ∧ Settled s1 s.page (cursor s s.page)
    ∧ TargetType.rel s.page 4 (cursor s s.page + 1) ∈ targets s1 l := by
  obtain ⟨its, e, hran⟩ := runs_items h
  have e' : its = [.i8 (opcodeOf i), .rel l 4] := by rcases hp with rfl | rfl <;> cases e <;> rfl
  subst e'
  have hh : here s = addrOf base s.page (cursor s s.page) := by
    simp only [here, addrOf, cursor, hi.inv.contents]
  have ht : ∀ l', targets s1 l' = targets s l' ++ if l = l' then [.rel s.page 4 (cursor s s.page + 1)] else [] := by
    intro l'
    rw [hran.targets]
    congr 1
    simp only [relsOf, Item.len, cursor]
    split <;> simp_all
  refine ⟨hran.here, ?_, hh, ⟨?_, fun l' t ht' hl hc => ?_⟩, ?_⟩
  · rw [hran.mem]
    exact putBytes_in (i := 0) _ (by simp [Item.bytes])
  · rw [cursor, cursor, hran.pages]
    simp only [if_true, lenOf_cons, Item.len]
    omega
  · rw [ht] at ht'
    obtain ⟨h1', h2', h3'⟩ := hc
    rcases List.mem_append.1 ht' with ht' | ht'
    · have := hi.slots.inside l' t ht' hl
      rw [h1'] at this
      omega
    · split at ht'
      · simp only [List.mem_singleton] at ht'
        subst ht'
        simp only [TargetType.pos] at h2'
        omega
      · cases ht'
  · rw [ht, if_pos rfl]; simp

/-! ### Parts of a history -/

theorem take_take {α} (H : List α) {a b : Nat} (h : a ≤ b) : H.take b = H.take a ++ (H.drop a).take (b - a) := by
  rw [List.take_drop, show a + (b - a) = b by omega]
  have := (List.take_append_drop a (H.take b)).symm
  rwa [List.take_take, Nat.min_eq_left h] at this

theorem reach_take (a : Nat) : reach base mem H = runCaught (H.drop a) (reach base mem (H.take a)) := by
  conv => lhs; rw [← List.take_append_drop a H]
  rw [reach, runCaught_append]; rfl

theorem reach_between {a b : Nat} (h : a ≤ b) :
    reach base mem (H.take b) = runCaught ((H.drop a).take (b - a)) (reach base mem (H.take a)) := by
  rw [take_take H h, reach, runCaught_append]; rfl

theorem noRaw_take (hr : NoRaw H) (a : Nat) : NoRaw (H.take a) ∧ NoRaw (H.drop a) :=
  noRaw_append.1 (by rwa [List.take_append_drop])

theorem keepsLabels_at (hf : KeepsLabels (JitMemory.new base mem) H) (a : Nat) :
    KeepsLabels (JitMemory.new base mem) (H.take a) ∧ KeepsLabels (reach base mem (H.take a)) (H.drop a) :=
  keepsLabels_append.1 (by rwa [List.take_append_drop])

theorem hinv_take (hr : NoRaw H) (a : Nat) : HInv base (reach base mem (H.take a)) :=
  hinv_reach (base := base) (mem := mem) (noRaw_take hr a).1

/-- A settled byte is settled later. -/
theorem settled_later (hr : NoRaw H) (hf : KeepsLabels (JitMemory.new base mem) H) {a b : Nat} (h : a ≤ b) {p pos}
    (hs : Settled (reach base mem (H.take a)) p pos) : Settled (reach base mem (H.take b)) p pos := by
  rw [reach_between h]
  have := (keepsLabels_at hf a).2
  rw [← List.take_append_drop (b - a) (H.drop a)] at this
  exact settled_kept (hinv_take (base := base) (mem := mem) hr a) (noRaw_take (noRaw_take hr a).2 _).1 (keepsLabels_append.1 this).1 hs

theorem reach_succ {op : Op} (hk : H[k]? = some op) : reach base mem (H.take (k + 1)) = (op.run (reach base mem (H.take k))).state := by
  rw [take_at hk, reach, runCaught_append, runCaught_cons]; rfl

/-- A field that is pending after call `a` is settled after a later `finalize` if its label is bound then. -/
theorem settled_resolved (hA : Alloc base) (hr : NoRaw H) (hf : KeepsLabels (JitMemory.new base mem) H) {a : Nat} {t : TargetType}
    (ht : t ∈ targets (reach base mem (H.take a)) l) (ha : a ≤ k) (hk : Finishes base mem H k) {x}
    (hb : HasAddress (reach base mem (H.take (k + 1))) l x) {pos} (hc : Covers t t.page pos) :
    Settled (reach base mem (H.take (k + 1))) t.page pos := by
  have h1 := finalize_take hk
  have hi2 := hinv_take (base := base) (mem := mem) hr k
  have f := finalize_hinv hi2 h1
  have := (keepsLabels_at hf a).2
  rw [← List.take_append_drop (k - a) (H.drop a)] at this
  rw [reach_between ha] at h1 f
  rcases pending_or_settled hA (hinv_take (base := base) (mem := mem) hr a) (noRaw_take (noRaw_take hr a).2 (k - a)).1 (keepsLabels_append.1 this).1 ht with h | h
  · obtain ⟨q, c, hl, -⟩ := (hasAddress_iff f.inv hA.pos).1 hb
    exact f.filled l _ (by rw [hl]; simp) h pos hc
  · exact (f.settled _ _ (h pos hc)).1

/-- The bytes of a patched jump at the end of the history. -/
theorem patched_bytes (hA : Alloc base) (hr : NoRaw H) (hf : KeepsLabels (JitMemory.new base mem) H)
    (hP : Patched base mem H n m i d) :
    place base mem H (n + 1) = place base mem H n + 5 ∧ (reach base mem H).mem (place base mem H n) = opcodeOf i
    ∧ base ≤ place base mem H n ∧ place base mem H n ≤ base + 3 * PAGE_SIZE
    ∧ ∃ a, HasAddress (reach base mem H) d a ∧ bytes (reach base mem H).mem (place base mem H n + 1) 4
        = le32 ((BitVec.ofNat 64 a - BitVec.ofNat 64 (place base mem H n) - 5).setWidth 32) := by
  obtain ⟨l, hl, k, hnk, hkm, hk, x, hx⟩ := hP.label
  obtain ⟨s1, h1⟩ := hP.runs
  have e1 := runs_reach hP.stmt h1
  have hi := hinv_take (base := base) (mem := mem) hr n
  have hi1 := hinv_take (base := base) (mem := mem) hr (n + 1)
  rw [← e1] at h1
  obtain ⟨q1, q2, q3, q4, q5⟩ := patchable_runs hi hl h1
  have q6 : (reach base mem (H.take n)).page < 3 := Nat.lt_of_lt_of_le hi.inv.page (by decide)
  have q7 : cursor (reach base mem (H.take n)) (reach base mem (H.take n)).page ≤ PAGE_SIZE := hi.inv.counter _
  generalize hpg : (reach base mem (H.take n)).page = pg at *
  generalize hcu : cursor (reach base mem (H.take n)) pg = cu at *
  have ep : place base mem H n = addrOf base pg cu := q3
  obtain ⟨da, hda⟩ := hP.bound
  -- the patch
  have hpatch : ∃ m', reach base mem (H.take (m + 1)) = { reach base mem (H.take m) with mem := m' }
      ∧ bytes m' (place base mem H n + 1) 4 = le32 ((BitVec.ofNat 64 da - BitVec.ofNat 64 (place base mem H n) - 5).setWidth 32) := by
    obtain ⟨m', a1, a2, a3⟩ := patch_run (y := place base mem H n) hda
    refine ⟨m', ?_, a3⟩
    rcases hP.patch with ⟨p, b1, b2⟩ | b1
    · rw [reach_succ b1]
      show (apply_jmp_patch p d (reach base mem (H.take m))).state = _
      rw [patch_label_run b2, a1]; rfl
    · rw [reach_succ b1]
      show (apply_jmp_patch_address _ d (reach base mem (H.take m))).state = _
      rw [a1]; rfl
  obtain ⟨m', c1, c2⟩ := hpatch
  refine ⟨q1, ?_, ?_, ?_, da, ?_, ?_⟩
  · have := kept_mem hi1 (noRaw_take hr _).2 (keepsLabels_at hf _).2 q4 (spares_range (a := place base mem H n) (n := 1) hi1.inv
      (by rw [ep]; exact Nat.le_refl _) (by rw [ep]; exact Nat.lt_succ_self _) hP.opcode)
    rw [← reach_take, ← ep] at this
    rw [this]; exact q2
  · rw [ep, addrOf, Nat.add_assoc]; exact Nat.le_add_right _ _
  · have key : ∀ p : Nat, p < 3 → cu ≤ PAGE_SIZE → base + PAGE_SIZE * p + cu ≤ base + 3 * PAGE_SIZE := by
      intro p hp hc
      rw [PAGE_SIZE_eq] at *
      omega
    rw [ep]; exact key pg q6 q7
  · have h0 := along_append.1 (show Along _ _ (H.take m ++ H.drop m) by rw [List.take_append_drop]; exact hP.once)
    rw [reach_take m]
    exact bound_caught hA (hinv_take (base := base) (mem := mem) hr m) (noRaw_take hr m).2 (keepsLabels_at hf m).2 h0.2
      (sound_caught (hinv_new base mem) (noRaw_take hr m).1 (keepsLabels_at hf m).1 h0.1 (sound_new base mem d)) hda
  · rw [← c2]
    refine mem_bytes_congr fun j hj => ?_
    have hc : Covers (.rel pg 4 (cu + 1)) pg (cu + 1 + j) := ⟨rfl, Nat.le_add_right _ _, Nat.add_lt_add_left hj _⟩
    have s1 : Settled (reach base mem (H.take (k + 1))) pg (cu + 1 + j) := settled_resolved hA hr hf q5 hnk hk hx hc
    have s2 := settled_later hr hf (show k + 1 ≤ m + 1 by omega) s1
    have ea : place base mem H n + 1 + j = addrOf base pg (cu + 1 + j) := by rw [ep]; simp only [addrOf]; omega
    have := kept_mem (hinv_take (base := base) (mem := mem) hr (m + 1)) (noRaw_take hr _).2 (keepsLabels_at hf _).2 s2
      (spares_range (a := place base mem H n + 1) (n := 4) (hinv_take (base := base) (mem := mem) hr (m + 1)).inv (by rw [← ea]; omega) (by rw [← ea]; omega) hP.field)
    rw [← reach_take, ← ea] at this
    rw [this, c1]

/-- The processor at a patched jump. -/
theorem patched_step {E : Effect} {δ δ' : Data} {r} (hA : Alloc base) (hr : NoRaw H) (hf : KeepsLabels (JitMemory.new base mem) H)
    (hP : Patched base mem H n m i d) (hd : Intact base mem H n δ) {I} (hI : instrAt base mem H meaning n (retarget d i) = some I) :
    X86.Step E ⟨placeW base mem H n, δ⟩ ⟨r, δ'⟩ ↔ Exec E (placeW base mem H (n + 1)) I δ r δ' := by
  obtain ⟨e5, h0, r1, r2, a, ha, h4⟩ := patched_bytes hA hr hf hP
  obtain ⟨b1, b2⟩ := addr_range (inv_reach base mem H) hA.pos ha
  have hu := hA.user
  have ev : ((BitVec.ofNat 64 a - BitVec.ofNat 64 (place base mem H n) - 5).setWidth 32).signExtend 64
      = dist (labelAddr (reach base mem H)) (place base mem H (n + 1)) d := by
    apply BitVec.eq_of_toInt_eq
    rw [toInt_signExtend32, dist, labelAddr_eq ha, e5, BitVec.toInt_ofInt,
      Int.bmod_eq_of_le (by rw [PAGE_SIZE_eq] at *; omega) (by rw [PAGE_SIZE_eq] at *; omega)]
    have := offset_toInt (x := a) (y := place base mem H n) (by rw [PAGE_SIZE_eq] at *; omega) (by rw [PAGE_SIZE_eq] at *; omega)
    omega
  obtain ⟨s1, h1⟩ := hP.runs
  obtain ⟨tail, -, h3, hfetch⟩ := fetch_at hP.stmt h1 hd
  have eI : X86.decode (fetch δ.mem (placeW base mem H n)) = some (I, tail) := by
    rw [hfetch, e5, Nat.add_sub_cancel_left, bytes_one, h4, h0]
    obtain ⟨l, hl | hl, -⟩ := hP.label
    · subst hl
      cases hI
      rw [← ev]
      simp [X86.decode, X86.prefixes, X86.isRex, X86.dispatch, X86.map1, imm32_le32, opcodeOf]
    · subst hl
      cases hI
      rw [← ev]
      simp [X86.decode, X86.prefixes, X86.isRex, X86.dispatch, X86.map1, imm32_le32, opcodeOf]
  have h6 : placeW base mem H n + BitVec.ofNat 64 (15 - tail.length) = placeW base mem H (n + 1) := by
    rw [h3]; exact placeW_add (by omega)
  constructor
  · rintro (⟨h7, h8⟩)
    rw [eI] at h7
    cases h7
    rwa [h6] at h8
  · intro h7
    exact .mk eI (by rwa [h6])

end Monoasm
