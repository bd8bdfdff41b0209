import Verif.Proofs.Position
import Verif.Proofs.History
import Verif.Props.C68
import Verif.Props.C01
/-
  C80: arithmetic of positions. `Pos` is public, with `Pos::from`, `+ i32`, `- Pos` and indexing; a user
  computes positions of bytes to read or to write with them (`Spec/Position.lean`).

  A sum is computed as `i64` and kept as `usize`, so that a position may be negative on the way. The
  results are those of the integers, in builds with and without overflow checks, and a result that is
  not the number of a position of the page is found out when it is used.
-/

namespace Monoasm
open Spec

variable {base : Nat} {mem : Nat → Byte} {h : List Op} {e f g : PosExp} {chk : Bool} {p : Page}

/-- **Exact**: after any history, an expression gives the number that it means (as `i64`), and nothing else happens. -/
theorem C80_exact (ha : Alloc base) (hb : base + 3 * PAGE_SIZE < 2 ^ 63) (hn : ∀ op ∈ h, Numbers op)
    (hm : e.Modest chk (reach base mem h)) :
    ∃ q : BitVec 64, e.eval chk (Machine.reach chk base mem h) = .ok q (Machine.reach chk base mem h)
      ∧ q.toInt = e.value (reach base mem h) :=
  eval_ok (inv_reach base mem h) (C68_state ha hb hn chk) e hm

/-- **Reading** `jit[Page(p)][e]` (or `jit[e]`, where `p` is the selected page) gives the byte at the position that
    is meant; if there is no such position on the page, it panics. -/
theorem C80_read (ha : Alloc base) (hb : base + 3 * PAGE_SIZE < 2 ^ 63) (hn : ∀ op ∈ h, Numbers op) (hp : p < 3)
    (hm : e.Modest chk (reach base mem h)) :
    let t := Machine.reach chk base mem h
    let v := e.value (reach base mem h)
    (OnPage v → (e.eval >>= Machine.MemPage.read p) chk t = .ok ((reach base mem h).mem (addrOf base p v.toNat)) t)
    ∧ (¬ OnPage v → (e.eval >>= Machine.MemPage.read p) chk t = .fault (.panic .pageSizeOverflow) t) := by
  intro t v
  obtain ⟨q, h1, h2⟩ := C80_exact (mem := mem) ha hb hn hm
  refine ⟨fun hv => (machine_bind h1).trans ?_, fun hv => (machine_bind h1).trans ?_⟩
  · obtain ⟨h3, h4⟩ := (toNat_onPage h2).1 hv
    rw [read_ok ha (inv_reach base mem h) (C68_state ha hb hn chk) hp h4, h3]
  · rw [Machine.MemPage.read, if_pos ((toNat_onPage h2).2 hv)]; rfl

/-- **Writing** `jit[Page(p)][e] = b` stores the byte there and changes nothing else; if there is no such
    position on the page, it panics and changes nothing. -/
theorem C80_write (ha : Alloc base) (hb : base + 3 * PAGE_SIZE < 2 ^ 63) (hn : ∀ op ∈ h, Numbers op) (hp : p < 3)
    (hm : e.Modest chk (reach base mem h)) (b : Byte) :
    let t := Machine.reach chk base mem h
    let v := e.value (reach base mem h)
    (OnPage v → ∃ m, (e.eval >>= fun q => Machine.MemPage.write p q b) chk t = .ok () { t with mem := m }
      ∧ ∀ a : BitVec 64, m a = if a.toNat = addrOf base p v.toNat then b else t.mem a)
    ∧ (¬ OnPage v → (e.eval >>= fun q => Machine.MemPage.write p q b) chk t = .fault (.panic .pageSizeOverflow) t) := by
  intro t v
  obtain ⟨q, h1, h2⟩ := C80_exact (mem := mem) ha hb hn hm
  refine ⟨fun hv => ?_, fun hv => (machine_bind h1).trans ?_⟩
  · obtain ⟨h3, h4⟩ := (toNat_onPage h2).1 hv
    obtain ⟨m, h5, h6⟩ := write_ok ha (inv_reach base mem h) (C68_state ha hb hn chk) hp h4 b chk
    refine ⟨m, (machine_bind h1).trans h5, fun a => ?_⟩
    rw [h6 a, h3]
  · rw [Machine.MemPage.write, if_pos ((toNat_onPage h2).2 hv)]; rfl

/-- **The way does not matter**: expressions that mean the same number are the same position. -/
theorem C80_same (ha : Alloc base) (hb : base + 3 * PAGE_SIZE < 2 ^ 63) (hn : ∀ op ∈ h, Numbers op)
    (he : e.Modest chk (reach base mem h)) (hf : f.Modest chk (reach base mem h))
    (hv : e.value (reach base mem h) = f.value (reach base mem h)) :
    e.eval chk (Machine.reach chk base mem h) = f.eval chk (Machine.reach chk base mem h) := by
  obtain ⟨q, h1, h2⟩ := C80_exact (mem := mem) ha hb hn he
  obtain ⟨r, h3, h4⟩ := C80_exact (mem := mem) ha hb hn hf
  rw [h1, h3, BitVec.eq_of_toInt_eq (h2.trans (hv.trans h4.symm))]

/-- **Differences** `f - g` of positions are exact if they are not negative. Otherwise a build with overflow
    checks panics; in one without, the result is no position of a page. -/
theorem C80_difference (p q : BitVec 64) (hp : p.toNat < 2 ^ 63) (hq : q.toNat < 2 ^ 63) (t : Machine.JitMemory) :
    (q.toNat ≤ p.toNat → ∀ chk, ∃ d : BitVec 64, Machine.posSub p q chk t = .ok d t ∧ d.toNat = p.toNat - q.toNat)
    ∧ (p.toNat < q.toNat → Machine.posSub p q true t = .fault .overflow t
      ∧ ∃ d : BitVec 64, Machine.posSub p q false t = .ok d t ∧ PAGE_SIZE ≤ d.toNat ∧ d.toInt = (p.toNat : Int) - q.toNat) := by
  refine ⟨fun h chk => ⟨p - q, posSub_ok (fun _ => h) t, by rw [BitVec.toNat_sub]; omega⟩, fun h => ⟨?_, p - q, posSub_ok (by simp) t, ?_, ?_⟩⟩
  · rw [Machine.posSub, if_pos ⟨rfl, h⟩]
  · rw [BitVec.toNat_sub, PAGE_SIZE_eq]; omega
  · rw [BitVec.toInt_sub, BitVec.toInt_eq_toNat_of_lt (by omega), BitVec.toInt_eq_toNat_of_lt (by omega), Int.bmod_eq_of_le] <;> omega

/-- The distance of two positions of a page leads from one to the other, with the cast that `+` needs:
    `p + (q - p) as i32` is `q`. Without overflow checks also if `q` is the first of the two. -/
theorem C80_across (p q : BitVec 64) (hp : p.toNat < PAGE_SIZE) (hq : q.toNat < PAGE_SIZE) (hc : chk = true → p.toNat ≤ q.toNat)
    (t : Machine.JitMemory) : (PosExp.shift (.num p) (.num q) (.num p)).eval chk t = .ok q t := by
  rw [PAGE_SIZE_eq] at hp hq
  have ep : p.toInt = p.toNat := BitVec.toInt_eq_toNat_of_lt (by omega)
  have eq : q.toInt = q.toNat := BitVec.toInt_eq_toNat_of_lt (by omega)
  have hd := toInt_difference (p := q) (q := p) (by omega) (by omega)
  obtain ⟨y, hy, hz⟩ := posAdd_ok (p := p) (d := (q - p).setWidth 32) (by omega) (by omega) chk t
  have : y = q := BitVec.eq_of_toInt_eq (by omega)
  subst this
  exact (machine_bind (posSub_ok hc t)).trans hy

/-- **What has just been emitted** is found by counting back from the current position: after `jit.emit(bs)`, the byte
    `jit[Pos::from(jit.get_current()) + (i - n)]` is `bs[i]`, `n` the length of `bs`. -/
theorem C80_back (ha : Alloc base) (hb : base + 3 * PAGE_SIZE < 2 ^ 63) (hn : ∀ op ∈ h, Numbers op) {bs : List Byte}
    (hroom : (reach base mem h).get_current + bs.length ≤ PAGE_SIZE) {i : Nat} {v : Byte} (hv : bs[i]? = some v) :
    let t := Machine.reach chk base mem (h ++ [.emit bs])
    ((PosExp.add .current (BitVec.ofInt 32 ((i : Int) - bs.length))).eval >>= Machine.MemPage.read t.page) chk t = .ok v t := by
  intro t
  obtain ⟨s', h1, h2⟩ := C01_emit (reach base mem h) bs hroom
  have er : reach base mem (h ++ [.emit bs]) = s' := by
    have e : reach base mem (h ++ [.emit bs]) = (JitMemory.emit bs (reach base mem h)).state := by
      simp only [reach, runCaught, List.foldl_append, List.foldl_cons, List.foldl_nil]; rfl
    rw [e, h1]; rfl
  have hn' : ∀ op ∈ h ++ [Op.emit bs], Numbers op := fun op ho => by
    rcases List.mem_append.1 ho with ho | ho
    · exact hn op ho
    · rw [List.mem_singleton.1 ho]; trivial
  obtain ⟨hlt, hbi⟩ := List.getElem?_eq_some_iff.1 hv
  have hpg : s'.page < 3 := by
    rw [← er]; exact Nat.lt_trans (inv_reach base mem _).page (by decide)
  have hcur : s'.get_current = (reach base mem h).get_current + bs.length := by
    rw [JitMemory.get_current, h2.selected, h2.page]; rfl
  have hd : (BitVec.ofInt 32 ((i : Int) - bs.length)).toInt = (i : Int) - bs.length := by
    rw [PAGE_SIZE_eq] at hroom
    rw [BitVec.toInt_ofInt, Int.bmod_eq_of_le] <;> omega
  have hval : (PosExp.add .current (BitVec.ofInt 32 ((i : Int) - bs.length))).value s' = ((reach base mem h).get_current + i : Nat) := by
    show (s'.get_current : Int) + _ = _
    rw [hd, hcur]; omega
  have hm : (PosExp.add .current (BitVec.ofInt 32 ((i : Int) - bs.length))).Modest chk (reach base mem (h ++ [.emit bs])) := by
    rw [er]
    have hv' : s'.get_current + (BitVec.ofInt 32 ((i : Int) - bs.length)).toInt = (((reach base mem h).get_current + i : Nat) : Int) := hval
    rw [PAGE_SIZE_eq] at hroom
    refine ⟨trivial, ?_, ?_⟩
    · show _ ≤ (s'.get_current : Int) + _; omega
    · show (s'.get_current : Int) + _ < _; omega
  have ht : t.page = s'.page := by rw [← er]; exact ((C68_state ha hb hn' chk).page).symm
  have hr := (C80_read (mem := mem) (p := t.page) ha hb hn' (by rw [ht]; exact hpg) hm).1
  rw [er, hval] at hr
  rw [hr ⟨by omega, by omega⟩, ht, Int.toNat_natCast, addrOf]
  have hc := (inv_reach base mem h).contents (reach base mem h).page
  have hb' := congrArg (fun l => l[i]?) h2.stored
  simp only [bytes, List.getElem?_map, hv, List.getElem?_range hlt, Option.map_some, Option.some.injEq] at hb'
  rw [hc] at hb'
  rw [h2.selected, ← hb']
  congr 2
  show _ + ((reach base mem h).get_current + i) = _ + (reach base mem h).get_current + i
  omega

/-- A jump of 5 bytes; its opcode and the byte that ends it, from the current position; on the way, the position is
    negative; a position before the page; the last position of a page. -/
example : let h : List Op := [.emit [0xe9, 1, 2, 3, 4]]
    let s := reach 0x10000000 (fun _ => 0xcc) h
    (∀ op ∈ h, Numbers op)
    ∧ (∀ chk, (PosExp.add (.add .current (-9)) 4).Modest chk s ∧ (PosExp.add (.add .current (-9)) 4).value s = 0)
    ∧ (PosExp.add .current (-6)).value s = -1 ∧ ¬ OnPage (-1)
    ∧ (PosExp.shift .current (.num 0xfffffff) .current).value s = 0xfffffff ∧ OnPage 0xfffffff
    ∧ (PosExp.shift .current (.num 0xfffffff) .current).Modest true s := by
  have hc : (reach 0x10000000 (fun _ => 0xcc) [.emit [0xe9, 1, 2, 3, 4]]).get_current = 5 := by decide +kernel
  refine ⟨by intro op ho; rw [List.mem_singleton.1 ho]; trivial, fun chk => ?_, ?_, ?_, ?_, ?_, ?_⟩
  all_goals simp only [PosExp.Modest, PosExp.value, hc, OnPage, PAGE_SIZE_eq]
  all_goals decide

/-- The same read in the machine: the opcode, found from behind. -/
example (chk : Bool) :
    let t := Machine.reach chk 0x10000000 (fun _ => 0xcc) ([] ++ [.emit [0xe9, 1, 2, 3, 4]])
    ((PosExp.add .current (BitVec.ofInt 32 ((0 : Nat) - 5))).eval >>= Machine.MemPage.read t.page) chk t = .ok 0xe9 t :=
  C80_back (h := []) (bs := [0xe9, 1, 2, 3, 4]) (i := 0) ⟨⟨1, rfl⟩, by decide, by decide⟩ (by decide)
    (by simp) (by decide +kernel) rfl

/-- **The builds differ** when the difference is negative: `Pos::from(3) - Pos::from(5)`. -/
example (t : Machine.JitMemory) : Machine.posSub 3 5 true t = .fault .overflow t ∧ Machine.posSub 3 5 false t = .ok (-2) t :=
  ⟨((C80_difference 3 5 (by decide) (by decide) t).2 (by decide)).1, rfl⟩

end Monoasm
