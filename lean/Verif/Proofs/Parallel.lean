import Verif.Spec.Parallel
import Verif.Proofs.Session
/-
  Helper lemmas for C76 and C77: generated code on one processor while another one calls the API.
-/

namespace Monoasm
open Spec X86 JitMemory

variable {base : Nat} {mem : Nat → Monoasm.Byte} {K S : List Op} {E : Effect} {F : Host} {op : Op} {s s' : State} {d : Data}

/-! ### Where calls store -/

theorem withMem_alike {j t : JitMemory} (h : SameRecords j t) (m) : ({ j with mem := m } : JitMemory) = { t with mem := m } := by
  obtain ⟨h1, h2, h3⟩ := h
  simp only [h1, h2, h3]

theorem stores_alike {j t : JitMemory} (h : SameRecords j t) {a} : Stores j op a ↔ Stores t op a := by
  simp only [Stores, withMem_alike h]

theorem stored_value {j : JitMemory} {a} (h : Stores j op a) (m m') :
    (op.run { j with mem := m }).state.mem a = (op.run { j with mem := m' }).state.mem a := by
  obtain ⟨w, hw⟩ := Blind.op op j
  obtain ⟨m0, h⟩ := h
  rw [hw, withMem_mem] at h ⊢
  rw [hw, withMem_mem]
  cases e : w a with
  | none => simp [overlay, e] at h
  | some v => simp [overlay, e]

theorem not_stores {j : JitMemory} {a} (h : ¬ Stores j op a) (m) : (op.run { j with mem := m }).state.mem a = m a :=
  Classical.not_not.1 fun hn => h ⟨m, hn⟩

theorem not_stores_self {j : JitMemory} {a} (h : ¬ Stores j op a) : (op.run j).state.mem a = j.mem a := not_stores h j.mem

theorem isPatch_pokes (h : isPatch op = true) : op.pokes := by
  unfold isPatch at h
  split at h <;> first | trivial | cases h

theorem tame_not_patch (h : tame op = true) : isPatch op = false := by
  cases op <;> first | rfl | cases h

theorem stores_overwrites {j : JitMemory} (h : isPatch op = true) {a} (hs : Stores j op a) : Overwrites j op a := by
  obtain ⟨m, hs⟩ := hs
  obtain ⟨m', e, hm⟩ := pokes_state (isPatch_pokes h) { j with mem := m }
  rw [e] at hs
  refine Classical.not_not.1 fun hn => hs (hm a fun ho => hn (overwrites_alike (s := j) (t := { j with mem := m }) ⟨rfl, rfl, rfl⟩ ho))

/-- Calls other than patches do not store where the code is finished. -/
theorem settled_not_stores {j : JitMemory} (hi : HInv base j) (ht : tame op = true)
    (hf : op = .finalize → (finalize j).state.labels.length = j.labels.length) {p pos} (hs : Settled j p pos) :
    ¬ Stores j op (addrOf base p pos) := by
  rintro ⟨m, hm⟩
  have hr := alike_step (A := fun _ => False) (show SameRecords ({ j with mem := m } : JitMemory) j from ⟨rfl, rfl, rfl⟩) (fun _ => False.elim) op
  have := (settled_op (hinv_mem hi m) (tame_raw ht) (p := p) (pos := pos) (fun e => by
    subst e
    have := congrArg List.length hr.1.labels
    exact this.trans (hf rfl)) ⟨hs.1, hs.2⟩ (tame_spares ht _)).2
  apply hm
  have hc := hi.inv.contents p
  have hc' := (inv_op (hi.inv.putMem m) op).contents p
  simp only [byteAt, hc'] at this
  simp only [hc] at this
  exact this

/-! ### Finished code -/

theorem complete_settled (hA : Alloc base) (h : Complete base mem K S) {n i} (hn : K[n]? = some (.inst i)) {a : Nat}
    (h1 : Spec.place base mem K n ≤ a) (h2 : a < Spec.place base mem K (n + 1)) :
    ∃ p pos, a = addrOf base p pos ∧ (p = 0 ∨ p = 1) ∧ Settled (reach base mem K) p pos := by
  have c := complete_smooth h
  obtain ⟨s1, hrun⟩ := c.runs hn
  have e1 := runs_reach hn hrun
  obtain ⟨its, hits, hran⟩ := runs_items hrun
  have hi0 := hinv_take (base := base) (mem := mem) c.raw n
  have hi1 := hinv_take (base := base) (mem := mem) c.raw (n + 1)
  have hh0 := here_eq hi0.inv
  have hh1 := here_eq hi1.inv
  have hpg := c.page hn
  have hlt : n < K.length := (List.getElem?_eq_some_iff.1 hn).1
  rw [Spec.place] at h1 h2
  rw [hh0] at h1
  rw [hh1, hpg] at h2
  obtain ⟨q, hq⟩ : ∃ q, q = (reach base mem (K.take n)).page := ⟨_, rfl⟩
  rw [← hq] at h1 h2
  obtain ⟨pos, rfl⟩ : ∃ pos, a = addrOf base q pos := ⟨a - (base + PAGE_SIZE * q), by simp only [addrOf]; omega⟩
  have hp2 : q = 0 ∨ q = 1 := by rw [hq]; exact page_lt_two hi0.inv.page
  refine ⟨q, pos, rfl, hp2, ?_⟩
  have b1 : cursor (reach base mem (K.take n)) q ≤ pos := by simp only [addrOf] at h1; omega
  have b2 : pos < cursor (reach base mem (K.take (n + 1))) q := by simp only [addrOf] at h2; omega
  by_cases hc : ∃ l t, t ∈ added (reach base mem (K.take n)) (reach base mem (K.take (n + 1))) l ∧ Covers t q pos
  · obtain ⟨l, t, ht, hcov⟩ := hc
    rw [e1] at ht
    obtain ⟨-, i', hi', hml⟩ := added_mention (is := [i]) (runsAll_cons.2 ⟨_, hrun, runsAll_nil.2 rfl⟩) ht
    cases List.mem_singleton.1 hi'
    obtain ⟨k, hk1, hk2, hk3⟩ := complete_final h hA hn
    obtain ⟨x, hx⟩ := hk3 l hml
    rw [← e1] at ht
    obtain ⟨rfl, c2, c3⟩ := hcov
    have := settled_resolved hA c.raw c.noPanic (added_mem ht) hk1 hk2 hx ⟨rfl, c2, c3⟩
    have := settled_later c.raw c.noPanic (b := K.length) (by have := (List.getElem?_eq_some_iff.1 hk2.1).1; omega) this
    rwa [List.take_length] at this
  · have : Settled (reach base mem (K.take (n + 1))) q pos := by
      refine ⟨b2, fun l t ht hl hcov => ?_⟩
      rw [e1, hran.targets] at ht
      rcases List.mem_append.1 ht with ht | ht
      · have := hi0.slots.inside l t ht hl
        obtain ⟨c1, c2, c3⟩ := hcov
        rw [c1] at this
        omega
      · rw [← ran_added hran, ← e1] at ht
        exact hc ⟨l, t, ht, hcov⟩
    have := settled_later c.raw c.noPanic (b := K.length) (by omega) this
    rwa [List.take_length] at this

theorem tame_along {ops : List Op} (h : ∀ o ∈ ops, tame o = true) {j : JitMemory} {p pos} : Spec.Spares p pos j ops := by
  induction ops generalizing j with
  | nil => trivial
  | cons o os ih => exact ⟨tame_spares (h o (by simp)) _, ih fun o ho => h o (by simp [ho])⟩

/-- Code of a program that is there: calls made later, and one in progress, have not changed it. -/
theorem present_bytes (hA : Alloc base) {c P n i} (hc : Calm base mem K c) (h : Present base mem K c P S) (hn : S[n]? = some (.inst i))
    {a : Nat} (h1 : Spec.place base mem P n ≤ a) (h2 : a < Spec.place base mem P (n + 1)) :
    (base ≤ a ∧ a < base + 2 * PAGE_SIZE) ∧ (reach base mem K).mem a = (reach base mem P).mem a
      ∧ ∀ op, c = some op → ¬ Stores (reach base mem K) op a := by
  obtain ⟨hC, ht, ops, rfl, hops⟩ := h
  obtain ⟨i0, hn0, -⟩ := (complete_standsFor hC hn).stmt
  obtain ⟨p, pos, rfl, hp, hs⟩ := complete_settled hA hC hn0 h1 h2
  obtain ⟨hr, hf, -⟩ := hc
  obtain ⟨hr1, hr2⟩ := noRaw_append.1 hr
  obtain ⟨hf1, hf2⟩ := keepsLabels_append.1 hf
  have hP := complete_smooth hC
  have hi := hinv_reach (base := base) (mem := mem) hP.raw
  have hiK := hinv_reach (base := base) (mem := mem) hr1
  have hf3 := (keepsLabels_append.1 hf1).2
  obtain ⟨g1, g2⟩ := settled_caught hi (noRaw_append.1 hr1).2 hf3 hs (tame_along hops)
  rw [← reach_append] at g1 g2
  have hpos : pos < PAGE_SIZE := Nat.lt_of_lt_of_le hs.1 (hi.inv.counter p)
  refine ⟨?_, ?_, fun op e => ?_⟩
  · simp only [addrOf]
    rcases hp with rfl | rfl <;> omega
  · simp only [byteAt, hiK.inv.contents, hi.inv.contents] at g2
    exact g2
  · subst e
    refine settled_not_stores hiK (ht op rfl) (fun e => ?_) g1
    exact hf2.1 e

/-! ### What memory holds -/

theorem run_joined {j : JitMemory} (h : SameRecords j (reach base mem K)) {a} (hs : Stores j op a) :
    (op.run (joined j d)).state.mem a = (reach base mem (K ++ [op])).mem a := by
  rw [reach_append]
  show _ = (op.run { reach base mem K with mem := (reach base mem K).mem }).state.mem a
  rw [← withMem_alike h]
  exact stored_value hs _ _

theorem reach_kept {a} (hs : ¬ Stores (reach base mem K) op a) : (reach base mem (K ++ [op])).mem a = (reach base mem K).mem a := by
  rw [reach_append]
  exact not_stores_self hs

theorem crew_leaves {c} (hQ : Redirecting base mem E F K c s) (hs : X86.Step E s s' ∨ F s s') (a : Nat) (h1 : base ≤ a) (h2 : a < base + 2 * PAGE_SIZE) :
    view s'.data a = view s.data a := by
  rcases hQ with ⟨op, S, S', -, -, -, -, -, -, h⟩ | h
  · exact h s' hs a h1 h2
  · exact h.2.2 s' hs a h1 h2

theorem holding_congr {c} {d' : Data} (hH : Holding base mem K c d)
    (h : ∀ a, base ≤ a → a < base + 2 * PAGE_SIZE → view d' a = view d a) : Holding base mem K c d' := by
  have key : ∀ {K}, Loaded base mem K d → Loaded base mem K d' := fun hL a h1 h2 => (h a h1 h2).trans (hL a h1 h2)
  cases c with
  | none => exact key hH
  | some op =>
    simp only [Holding] at hH ⊢
    split
    · rename_i hp
      rw [if_pos hp] at hH
      exact hH.imp key key
    · rename_i hp
      rw [if_neg hp] at hH
      exact fun a h1 h2 h3 => (h a h1 h2).trans (hH a h1 h2 h3)

/-- Records and memory, whatever happens. -/
theorem crew_step (hA : Alloc base) {p p' : Crew} {ops} (h : Crew.Step base (machine E) F K p ops p') (hr : SameRecords p.jit (reach base mem K))
    (hQ : Redirecting base mem E F K p.call p.cpu) (hH : Holding base mem K p.call p.cpu.data) :
    SameRecords p'.jit (reach base mem (K ++ ops)) ∧ Holding base mem (K ++ ops) p'.call p'.cpu.data := by
  have hu := hA.user
  cases h with
  | code hf hs => rw [List.append_nil]; exact ⟨hr, holding_congr hH (crew_leaves hQ (.inl hs))⟩
  | host hf hs => rw [List.append_nil]; exact ⟨hr, holding_congr hH (crew_leaves hQ (.inr hs))⟩
  | other h => rw [List.append_nil]; exact ⟨hr, holding_congr hH h⟩
  | start op =>
    rw [List.append_nil]
    refine ⟨hr, ?_⟩
    simp only [Holding] at hH ⊢
    split
    · exact .inl hH
    · exact fun a h1 h2 _ => hH a h1 h2
  | @store r d m j op hp h =>
    rw [List.append_nil]
    refine ⟨hr, ?_⟩
    simp only [Holding, hp] at hH ⊢
    intro a h1 h2 h3
    refine Eq.trans ?_ (hH a h1 h2 h3)
    refine h (BitVec.ofNat 64 a) ?_
    rw [BitVec.toNat_ofNat, Nat.mod_eq_of_lt (by omega)]
    rwa [stores_alike hr]
  | @patch r d m j op line hp h1 h2 =>
    rw [List.append_nil]
    refine ⟨hr, ?_⟩
    simp only [Holding, hp, if_true] at hH ⊢
    rcases hQ with ⟨op', S, S', e, -, -, -, hl, -⟩ | hQ
    · cases e
      have hv : ∀ a, base ≤ a → a < base + 2 * PAGE_SIZE → (BitVec.ofNat 64 a).toNat = a := fun a g1 g2 => by
        rw [BitVec.toNat_ofNat, Nat.mod_eq_of_lt (by omega)]
      by_cases hex : ∃ b, Stores j op b ∧ b / LINE = line
      · obtain ⟨b, hb, hbl⟩ := hex
        right
        have hb := stores_overwrites hp ((stores_alike hr).1 hb)
        intro a g1 g2
        have e := hv a g1 g2
        by_cases hs : Stores j op a
        · have := hl a b (stores_overwrites hp ((stores_alike hr).1 hs)) hb
          refine (h1 (BitVec.ofNat 64 a) (by rw [e]; omega) (by rw [e]; exact hs)).trans ?_
          rw [e]
          exact run_joined hr hs
        · refine (h2 (BitVec.ofNat 64 a) fun g => hs (by rw [e] at g; exact g.2)).trans ?_
          have hs := fun g => hs ((stores_alike hr).2 g)
          rcases hH with hH | hH
          · exact (hH a g1 g2).trans (reach_kept hs).symm
          · exact hH a g1 g2
      · have same : ∀ a, base ≤ a → a < base + 2 * PAGE_SIZE → m (BitVec.ofNat 64 a) = d.mem (BitVec.ofNat 64 a) := fun a g1 g2 =>
          h2 _ fun g => hex ⟨a, by rw [hv a g1 g2] at g; exact ⟨g.2, g.1⟩⟩
        exact hH.imp (fun hH a g1 g2 => (same a g1 g2).trans (hH a g1 g2)) (fun hH a g1 g2 => (same a g1 g2).trans (hH a g1 g2))
    · have := tame_not_patch (hQ.1.2.2 op rfl)
      rw [hp] at this
      cases this
  | @finish r d j op h =>
    refine ⟨?_, fun a h1 h2 => ?_⟩
    · rw [reach_append]
      exact (alike_step (A := fun _ => False) ((joined_records j d).trans hr) (fun _ => False.elim) op).1
    · by_cases hs : Stores j op a
      · exact (h a h1 h2 hs).trans (run_joined hr hs)
      · have hs := fun g => hs ((stores_alike hr).2 g)
        show view d a = _
        rw [reach_kept hs]
        simp only [Holding] at hH
        split at hH
        · rcases hH with hH | hH
          · exact hH a h1 h2
          · exact (hH a h1 h2).trans (reach_kept hs)
        · exact hH a h1 h2 hs

/-! ### Steps -/

/-- What a patch of a complete program makes of it. -/
theorem patch_complete {S' : List Op} (hp : isPatch op = true) (h : Complete base mem K S) (h' : Complete base mem (K ++ [op]) S') :
    ∃ m i d, S[m]? = some (.inst i) ∧ S' = S.set m (.inst (retarget d i)) ++ [op]
      ∧ JumpResolved base mem K m ∧ PatchesAt (reach base mem K) (Spec.place base mem K m) d op := by
  have hb := h'.becomes
  generalize hK : K ++ [op] = K' at hb
  cases hb with
  | start => simp at hK
  | call g1 g2 =>
    obtain ⟨rfl, e⟩ := List.append_inj' hK rfl
    cases e
    rw [tame_not_patch g2] at hp
    cases hp
  | patch g1 g2 g3 g4 g5 =>
    obtain ⟨rfl, e⟩ := List.append_inj' hK rfl
    cases e
    cases becomes_unique (complete_smooth h) h.becomes g1
    exact ⟨_, _, _, g2, rfl, g3, g4⟩

theorem retarget_kind {i : Inst Val Nat} (l) (h1 : placedLabel i = none) (h2 : isData i = false) :
    placedLabel (retarget l i) = none ∧ isData (retarget l i) = false := by
  unfold retarget
  split
  · exact ⟨rfl, rfl⟩
  · exact ⟨rfl, rfl⟩
  · exact ⟨h1, h2⟩

/-- A step at a statement of a program is what the source says. -/
theorem told_at (hA : Alloc base) {c P n i} (hC : Present base mem K c P S ∨ Between base mem K c P S) (hn : S[n]? = some (.inst i))
    (hl : placedLabel i = none) (hd : isData i = false) (hrip : s.rip = placeW base mem P n) (hI : Intact base mem P n s.data)
    (hs : X86.Step E s s') : Told base mem E K c s s' := by
  have hC' : Complete base mem P S := hC.elim (·.1) (·.1)
  obtain ⟨r, δ⟩ := s
  obtain ⟨r', δ'⟩ := s'
  simp only at hrip
  subst hrip
  rcases live_back hC' hA hn (complete_valid hC' hn hl hd) hI hs with ⟨m, h1, rfl⟩ | ⟨⟨h1, I, h2, h3, h4⟩, -⟩
  · exact .code hC h1
  · exact .leave (s := ⟨r', δ'⟩) hC hn h1 h2 h3 h4

theorem present_intact (hA : Alloc base) {c P n i} (hc : Calm base mem K c) (h : Present base mem K c P S) (hn : S[n]? = some (.inst i))
    (hH : Holding base mem K c d) : Intact base mem P n d := by
  intro a h1 h2
  obtain ⟨g1, g2, g3⟩ := present_bytes hA hc h hn h1 h2
  rw [← g2]
  cases c with
  | none => exact hH a g1.1 g1.2
  | some op =>
    simp only [Holding, tame_not_patch (hc.2.2 op rfl)] at hH
    exact hH a g1.1 g1.2 (g3 op rfl)

/-- The steps of the processor are what the source says. -/
theorem told_of_step (hA : Alloc base) {c} (hQ : Redirecting base mem E F K c s) (hH : Holding base mem K c s.data)
    (hf : ¬ Foreign base s.rip) (hs : X86.Step E s s') : Told base mem E K c s s' := by
  rcases hQ with ⟨op, S, S', rfl, hp, hC, hC', -, h | ⟨n, i, hn, hl, hd, hrip⟩, -⟩ | ⟨hc, h | ⟨P, S, n, i, hP, hn, hl, hd, hrip⟩, -⟩
  · exact absurd h hf
  · simp only [Holding, hp, if_true] at hH
    rcases hH with hH | hH
    · exact told_at hA (.inr ⟨hC, op, rfl, hp, .inl rfl⟩) hn hl hd hrip (loaded_intact hH n) hs
    · obtain ⟨m, j, l, hm, rfl, -⟩ := patch_complete hp hC hC'
      have hlen := becomes_length hC.becomes
      have hlt : n < S.length := (List.getElem?_eq_some_iff.1 hn).1
      have hrip' : s.rip = placeW base mem (K ++ [op]) n := by
        rw [hrip, placeW, placeW, place_snoc (by omega)]
      by_cases e : m = n
      · subst e
        cases hm.symm.trans hn
        obtain ⟨g1, g2⟩ := retarget_kind l hl hd
        refine told_at hA (.inr ⟨hC', op, rfl, hp, .inr rfl⟩) (i := retarget l i) ?_ g1 g2 hrip' (loaded_intact hH m) hs
        rw [List.getElem?_append_left (by simpa using hlt), List.getElem?_set_self hlt]
      · refine told_at hA (.inr ⟨hC', op, rfl, hp, .inr rfl⟩) (i := i) ?_ hl hd hrip' (loaded_intact hH n) hs
        rw [List.getElem?_append_left (by simpa using hlt), List.getElem?_set_ne e]
        exact hn
  · exact absurd h hf
  · exact told_at hA (.inl hP) hn hl hd hrip (present_intact hA hc hP hn hH) hs

/-- Conversely, when no patch is in progress. -/
theorem step_of_told (hA : Alloc base) {c} (hc : Calm base mem K c) (hH : Holding base mem K c s.data)
    (h : Told base mem E K c s s') : ¬ Foreign base s.rip ∧ X86.Step E s s' := by
  have np : ∀ {P S}, Present base mem K c P S ∨ Between base mem K c P S → Present base mem K c P S := by
    rintro P S (h | ⟨-, op, rfl, hp, -⟩)
    · exact h
    · rw [tame_not_patch (hc.2.2 op rfl)] at hp
      cases hp
  cases h with
  | @code P S n d m d' hP hs =>
    have hP := np hP
    refine ⟨live_home hA n, live_forward hP.1 hA ?_ hs⟩
    obtain ⟨i, hn⟩ : ∃ i, S[n]? = some (.inst i) := by cases hs <;> exact ⟨_, by assumption⟩
    exact present_intact hA hc hP hn hH
  | @leave P S n d s i I hP hn h1 h2 h3 h4 =>
    have hP := np hP
    exact ⟨live_home hA n, (live_step hP.1 hA hn h2 (present_intact hA hc hP hn hH)).2 h4⟩

theorem crew_mono {R R' : Engine} {p p' : Crew} {ops} (h : Crew.Step base R F K p ops p')
    (hR : ∀ s', ¬ Foreign base p.cpu.rip → R K p.call p.cpu s' → ¬ Foreign base p.cpu.rip ∧ R' K p.call p.cpu s') :
    Crew.Step base R' F K p ops p' := by
  cases h with
  | code hf hs => exact .code hf (hR _ hf hs).2
  | host hf hs => exact .host hf hs
  | other h => exact .other h
  | start op => exact .start op
  | store h1 h2 => exact .store h1 h2
  | patch l h1 h2 h3 => exact .patch l h1 h2 h3
  | finish h => exact .finish h

theorem crew_run (hA : Alloc base) {p p' : Crew} {K'} (h : Crew.Run base (machine E) F (Redirecting base mem E F) K p K' p')
    (hr : SameRecords p.jit (reach base mem K)) (hH : Holding base mem K p.call p.cpu.data) :
    Crew.Run base (Told base mem E) F (Redirecting base mem E F) K p K' p'
      ∧ SameRecords p'.jit (reach base mem K') ∧ Holding base mem K' p'.call p'.cpu.data := by
  induction h with
  | done hQ => exact ⟨.done hQ, hr, hH⟩
  | step hQ hs _ ih =>
    obtain ⟨g1, g2⟩ := crew_step hA hs hr hQ hH
    obtain ⟨k1, k2⟩ := ih g1 g2
    exact ⟨.step hQ (crew_mono hs fun s' hf h => ⟨hf, told_of_step hA hQ hH hf h⟩) k1, k2⟩

theorem crew_weaken {R : Engine} {p p' : Crew} {K'} {Q Q' : List Op → Option Op → State → Prop} (h : Crew.Run base R F Q K p K' p')
    (hQ : ∀ K c s, Q K c s → Q' K c s) : Crew.Run base R F Q' K p K' p' := by
  induction h with
  | done h => exact .done (hQ _ _ _ h)
  | step h hs _ ih => exact .step (hQ _ _ _ h) hs ih

/-- The jump at the address of a patch, and the label. -/
theorem patches_unique (c : Smooth base mem K) {n m i l t t'} (hn : K[n]? = some (.inst i)) (hi : Patchable i l)
    (hm : JumpResolved base mem K m) (h : PatchesAt (reach base mem K) (Spec.place base mem K n) t op)
    (h' : PatchesAt (reach base mem K) (Spec.place base mem K m) t' op) : n = m ∧ t = t' := by
  obtain ⟨i', l', k1, k2, -⟩ := hm
  have hp : t = t' ∧ Spec.place base mem K n = Spec.place base mem K m := by
    unfold PatchesAt at h h'
    split at h
    · exact ⟨h.1.symm.trans h'.1, by
        have := h.2.1.symm.trans h'.2.1
        injection this⟩
    · exact ⟨h.1.symm.trans h'.1, h.2.symm.trans h'.2⟩
    · exact h.elim
  refine ⟨?_, hp.1⟩
  by_cases hnn : n = m
  · exact hnn
  · have a1 := c.apart hn k1 hnn
    have a2 := c.patchable hn hi
    have a3 := c.patchable k1 k2
    omega

theorem binds_snoc {m l} (ho : isPatch op = true) (h : Binds base mem (K ++ [op]) m l) : Binds base mem K m l ∧ m < K.length := by
  obtain ⟨h1, h2⟩ := h
  by_cases hm : m < K.length
  · refine ⟨⟨?_, ?_⟩, hm⟩
    · simpa only [List.getElem?_append_left hm] using h1
    · rwa [take_snoc (by omega)] at h2
  · exfalso
    have : ∀ o, (K ++ [op])[m]? = some o → o = op := by
      intro o h
      rw [List.getElem?_append_right (by omega)] at h
      exact List.mem_singleton.1 (List.mem_of_getElem? h)
    rcases h1 with h1 | h1 <;> (rw [← this _ h1] at ho; cases ho)

/-- A jump to a label goes there. -/
theorem live_jmp {P n m l} {δ δ' : Data} (hn : S[n]? = some (.inst (.Jmp (.rel l)))) (h : LiveStep base mem P S encoded E n δ m δ') :
    Binds base mem P m l ∧ δ' = δ := by
  cases h with
  | jmp h1 h2 => cases hn.symm.trans h1; exact ⟨h2, rfl⟩
  | taken h1 => cases hn.symm.trans h1
  | notTaken h1 => cases hn.symm.trans h1
  | call h1 => cases hn.symm.trans h1
  | seq h1 h2 h3 =>
    cases hn.symm.trans h1
    cases h2
    cases h3
  | indirect h1 h2 => cases hn.symm.trans h1; cases h2

/-- A call of a label goes there, too. -/
theorem live_call {P n m l} {δ δ' : Data} (hn : S[n]? = some (.inst (.Call (.rel l)))) (h : LiveStep base mem P S encoded E n δ m δ') :
    Binds base mem P m l ∧ δ' = δ.push (placeW base mem P (n + 1)) := by
  cases h with
  | jmp h1 => cases hn.symm.trans h1
  | taken h1 => cases hn.symm.trans h1
  | notTaken h1 => cases hn.symm.trans h1
  | call h1 h2 => cases hn.symm.trans h1; exact ⟨h2, rfl⟩
  | seq h1 h2 h3 =>
    cases hn.symm.trans h1
    cases h2
    cases h3
  | indirect h1 h2 => cases hn.symm.trans h1; cases h2

end Monoasm
