import Verif.Lemmas.EventStep
/-!
# The history of a subscription
-/
set_option autoImplicit false
namespace Dax

/-! ## Bounds of writes -/

theorem tagGetSize_u32 {tbl : List Cdt} {t : Tag} {b : List Byte} (h : TagOK tbl t)
    (hb : t.data = .mem b) : ∃ sz, tagGetSize tbl t = .ok sz ∧ u32 sz = b.length ∧
      sz < 2147483648 := by
  have ha := (h.mem b hb).1
  have hc := h.cnt
  unfold allocSize at ha
  unfold tagGetSize
  split at ha
  · rename_i hbool
    rw [if_pos hbool]
    simp only [C.ok.injEq] at ha
    refine ⟨_, rfl, ?_, by omega⟩
    rw [ha]; unfold u32; omega
  · rename_i hbool
    rw [if_neg hbool]
    obtain ⟨ts, hts, ha⟩ := C.bind_eq_ok.mp ha
    simp only [C.ok.injEq] at ha
    rw [hts]
    refine ⟨i32 (ts * t.count), rfl, ?_, ?_⟩
    · rw [← ha]
      unfold i32 u32
      split <;> omega
    · unfold i32; split <;> omega

/-- A successful write lies inside a tag of less than 2³¹ bytes. -/
theorem writes_done {s s' : Server} {fd off : Int} {q : Req} {i len : Nat} {t : Tag} {b : List Byte}
    (hw : WF s) (hq : q.writes i off len) (h0 : 0 ≤ off) (ht : s.db[i]? = some t)
    (hv : t.attr.virt = false) (hb : t.data = .mem b) (hm : MapFree s i)
    (hh : handle s fd q = .ok (s', .resp [])) :
    b.length < 2147483648 ∧ off + len ≤ b.length ∧ ∃ d, d.length = len ∧ WriteDone s i off d len s' := by
  obtain ⟨sz, hsz, hu, hlt⟩ := tagGetSize_u32 (hw.tag i t ht) hb
  have hmm : ∀ t, s.db[i]? = some t → t.data ≠ .freed → t.wildMaps = false ∧ t.maps = [] :=
    fun t ht _ => (noMaps_iff ht).mp hm.1
  rcases hq with ⟨d, rfl, rfl⟩ | ⟨d, m, rfl, rfl, hml⟩
  · have hd : WriteDone s i off d d.length s' := by
      rcases write_inv hmm hh with ⟨-, e, he⟩ | ⟨-, h | ⟨t0, _, _, _, _, ht0, hv0, _⟩⟩
      · simp at he
      · exact h
      · rw [tag?_natCast, ht] at ht0; cases ht0
        rw [hv] at hv0; simp at hv0
    simp only [handle, hTagWrite] at hh
    obtain ⟨ro, -, hh⟩ := C.bind_eq_ok.mp hh
    split at hh
    · simp at hh
    · obtain ⟨⟨s1, r1⟩, h1, hh⟩ := C.bind_eq_ok.mp hh
      unfold tagWrite at h1
      rw [tag?_natCast, ht] at h1
      simp only [hv, hb, Bool.false_eq_true, if_false, hsz, C.ok_bind] at h1
      obtain ⟨e, he, h1⟩ := C.bind_eq_ok.mp h1
      obtain ⟨he, hr⟩ := addI32_ok.mp he
      split at h1
      · simp only [C.ok.injEq, Prod.mk.injEq] at h1
        obtain ⟨rfl, rfl⟩ := h1
        dsimp only at hh
        rw [if_pos (by decide)] at hh
        simp at hh
      · have : (b.length : Int) = sz := by rw [← hu]; unfold u32; omega
        exact ⟨by omega, by omega, d, rfl, hd⟩
  · obtain ⟨t0, b0, old, ht0, hb0, hold, hd⟩ : ∃ t0 b0 old, s.tag? (i : Int) = some t0 ∧ t0.data = .mem b0 ∧
        rd b0 off d.length = .ok old ∧ WriteDone s i off (maskMerge d m old) d.length s' := by
      rcases mwrite_inv hmm hh with ⟨-, e, he⟩ | ⟨-, h⟩
      · simp at he
      · exact h
    have hl : (maskMerge d m old).length = d.length := by
      have := rd_length hold
      rw [maskMerge_length] <;> omega
    simp only [handle, hTagMWrite] at hh
    obtain ⟨ro, -, hh⟩ := C.bind_eq_ok.mp hh
    split at hh
    · simp at hh
    · obtain ⟨⟨s1, r1⟩, h1, hh⟩ := C.bind_eq_ok.mp hh
      unfold tagMaskWrite at h1
      split at h1
      · simp at h1
      rw [tag?_natCast, ht] at h1
      simp only [hv, hb, Bool.false_eq_true, if_false, hsz, C.ok_bind] at h1
      obtain ⟨e, he, h1⟩ := C.bind_eq_ok.mp h1
      obtain ⟨he, hr⟩ := addI32_ok.mp he
      split at h1
      · simp only [C.ok.injEq, Prod.mk.injEq] at h1
        obtain ⟨rfl, rfl⟩ := h1
        dsimp only at hh
        rw [if_pos (by decide)] at hh
        simp at hh
      · have : (b.length : Int) = sz := by rw [← hu]; unfold u32; omega
        exact ⟨by omega, by omega, _, hl, hd⟩

/-! ## The remembered state of a subscription -/

/-- The subscription as the server stores it, with its parameter and remembered block. -/
def Sub.ev (S : Sub) (data test : List Byte) : Ev :=
  { id := S.id, byte := i32 S.h.byte, bit := S.h.bit, count := i32 S.h.count, size := S.h.size, dtype := S.h.type,
    etype := S.et, data := data, test := test, notify := 0 }

theorem cmpLoop_core {ev ev' : Ev} (h1 : ev.data = ev'.data) (h2 : ev.dtype = ev'.dtype)
    {b : List Byte} {w inc : Nat} {cmp : Int} : ∀ (k bit : Nat) (pos : Int) (test : List Byte) (hit : Bool),
      cmpLoop ev b w inc cmp k bit pos test hit = cmpLoop ev' b w inc cmp k bit pos test hit := by
  intro k
  induction k with
  | zero => intro _ _ _ _; rfl
  | succ k ih => intro bit pos test hit; simp only [cmpLoop, h1, h2, ih]

theorem bandLoop_core {e : Env} {ev ev' : Ev} (h1 : ev.data = ev'.data) (h2 : ev.dtype = ev'.dtype)
    {b : List Byte} {w inc : Nat} : ∀ (k : Nat) (tpos pos : Int) (test : List Byte) (hit : Bool),
      bandLoop e ev b w inc k tpos pos test hit = bandLoop e ev' b w inc k tpos pos test hit := by
  intro k
  induction k with
  | zero => intro _ _ _ _; rfl
  | succ k ih => intro tpos pos test hit; simp only [bandLoop, h1, h2, ih]

/-- The evaluation of an event does not depend on its options and owner. -/
theorem evHit_core {e : Env} {ev ev' : Ev} {b : List Byte} {off size : Int}
    (h : { ev with options := 0, notify := 0 } = { ev' with options := 0, notify := 0 }) :
    evHit e ev b off size = evHit e ev' b off size := by
  simp only [Ev.mk.injEq, and_true] at h
  obtain ⟨h1, h2, h3, h4, h5, -, h6, h7, h8, h9⟩ := h
  simp only [evHit, evChange, evBits, evCompare, evDeadband, overlapLen, h2, h3, h4, h5, h6, h7, h9,
    cmpLoop_core h8 h6, bandLoop_core h8 h6]
  rfl

theorem evHit_sub {S : Sub} {e : Env} {ev : Ev} {b d t : List Byte} {off size : Int}
    (h : { ev with options := 0, notify := 0 } = S.ev d t) : evHit e ev b off size = evHit e (S.ev d t) b off size := by
  refine evHit_core ?_
  rw [h]
  unfold Sub.ev
  dsimp only

/-- The byte `k` belongs to the range of the subscription. -/
def Sub.has (S : Sub) (k : Nat) : Prop := S.h.byte ≤ k ∧ k < S.h.byte + S.h.size

/-- How the remembered block evolves: set up by the subscription, updated at every look. -/
inductive Chain (S : Sub) (e : Env) (data : List Byte) : List Look → List Byte → Prop
  | start {s : Server} {b test : List Byte} (h : setEventData s (S.ev [] []) b S.arg = .ok (data, test))
      (hl : S.h.byte + S.h.size ≤ b.length) : Chain S e data [⟨b, false, 0, 0⟩] test
  | look {H : List Look} {c : Look} {test test' b : List Byte} {hit : Bool} {off : Int} {len : Nat}
      (p : Chain S e data (c :: H) test) (ht : S.touched off len) (h0 : 0 ≤ off) (hl : off + len ≤ b.length)
      (hr : S.h.byte + S.h.size ≤ b.length) (hsm : b.length < 2147483648)
      (hf : ∀ k, S.has k → (k : Int) < off ∨ off + len ≤ k → b[k]? = c.content[k]?)
      (h : evHit e (S.ev data test) b off len = .ok (hit, test')) :
      Chain S e data (⟨b, hit, off, len⟩ :: c :: H) test'

/-- A subscription in force. -/
structure Watching (S : Sub) (s : Server) (c : Look) (H : List Look) : Prop where
  mk' ::
  ex : ∃ t ev b, s.db[S.i]? = some t ∧ t.attr.virt = false ∧ t.data = .mem b ∧ ev ∈ t.events ∧
    { ev with options := 0, notify := 0 } = S.ev ev.data ev.test ∧
    (∃ x ∈ s.stat, x.1 = ev.notify ∧ x.2.1 = S.fd) ∧
    S.h.byte + S.h.size ≤ b.length ∧ (∀ k, S.has k → b[k]? = c.content[k]?) ∧
    Chain S s.env ev.data (c :: H) ev.test

theorem stat_uid {s : Server} (hk : ModsOK s) {x : Nat × Int × Int} (hx : x ∈ s.stat) {m : Module}
    (hm : s.modByUid x.1 = some m) : m.fd = x.2.1 := by
  obtain ⟨m', hm', rfl⟩ := List.mem_map.mp hx
  unfold Server.modByUid at hm
  have h1 := List.mem_of_find?_eq_some hm
  have h2 := List.find?_some hm
  simp only [beq_iff_eq] at h2
  rw [hk.inj h1 hm' h2]

theorem evOverlap_congr {a b : Ev} {off n : Int} (h1 : a.byte = b.byte) (h2 : a.size = b.size) :
    evOverlap a off n = evOverlap b off n := by unfold evOverlap; rw [h1, h2]

theorem overlap_iff {S : Sub} {d t : List Byte} {off : Int} {len : Nat} {n : Nat} (h0 : 0 ≤ off)
    (hpos : 0 < len) (hl : off + len ≤ n) (hn : n < 2147483648) (hr : S.h.byte + S.h.size ≤ n)
    (hs : 0 < S.h.size) :
    evOverlap (S.ev d t) off len = true ↔ S.touched off len := by
  have hb : i32 (S.h.byte : Int) = S.h.byte := i32_of_range (by omega)
  simp only [evOverlap, Sub.ev, hb, Bool.and_eq_true, decide_eq_true_eq]
  have e1 : u32 off = off.toNat := by unfold u32; omega
  have e2 : u32 ((S.h.byte : Int) + S.h.size - 1) = S.h.byte + S.h.size - 1 := by unfold u32; omega
  rw [e1, e2]
  constructor
  · rintro ⟨h1, h2⟩
    refine ⟨max off.toNat S.h.byte, ?_, ?_, ?_, ?_⟩ <;> omega
  · rintro ⟨k, h1, h2, h3, h4⟩
    constructor <;> omega

theorem touched_size {S : Sub} {off : Int} {len : Nat} (h : S.touched off len) : 0 < S.h.size ∧ 0 < len := by
  obtain ⟨k, h1, h2, h3, h4⟩ := h
  omega

theorem seen_reachable {S : Sub} {s : Server} {H : List Look} (h : Seen S s H) : Reachable s := by
  induction h with
  | start h0 _ _ hh _ => exact h0.handle hh
  | write _ _ _ _ hh _ _ ih => exact ih.handle hh
  | miss _ _ _ _ _ hh _ ih => exact ih.handle hh
  | other _ _ _ hh ih => exact ih.handle hh

theorem stat_mem {s : Server} {m : Module} (h : m ∈ s.mods) : (m.uid, m.fd, m.tagindex) ∈ s.stat :=
  List.mem_map.mpr ⟨m, h, rfl⟩

/-- The subscription request. -/
theorem watching_start {S : Sub} {s s' : Server} {b : List Byte} (hr : Reachable s) (hi : S.h.index = S.i)
    (hid : S.id < 2147483648) (hz : S.h.byte + S.h.size < 4294967296)
    (hh : handle s S.fd (.evAdd S.h S.et S.arg) = .ok (s', .resp (le4 S.id)))
    (hd : TagData s' S.i b) : Watching S s' ⟨b, false, 0, 0⟩ [] := by
  have hst : s'.stat = s.stat := (handle_path_notReg (by simp) hr.modsOK hh).stat hr.modsOK
  simp only [handle, hEvAdd] at hh
  split at hh
  · simp at hh
  rename_i m hm
  obtain ⟨⟨s1, r1⟩, h1, hh⟩ := C.bind_eq_ok.mp hh
  simp only [C.ok.injEq, Prod.mk.injEq] at hh
  obtain ⟨rfl, hrep⟩ := hh
  unfold idOrErr at hrep
  split at hrep
  · simp at hrep
  rename_i hneg
  simp only [Reply.resp.injEq] at hrep
  unfold eventAdd at h1
  split at h1
  · simp only [C.ok.injEq, Prod.mk.injEq] at h1
    rw [← h1.2] at hneg; simp [ERR_ARG] at hneg
  rename_i t ht
  split at h1
  · simp only [C.ok.injEq, Prod.mk.injEq] at h1
    rw [← h1.2] at hneg; simp [ERR_ILLEGAL] at hneg
  rename_i hvq
  split at h1
  · split at h1
    · simp only [C.ok.injEq, Prod.mk.injEq] at h1
      rw [← h1.2] at hneg; simp [ERR_ILLEGAL] at hneg
    · simp at h1
  rename_i hq
  have hv : t.attr.virt = false := by simp_all
  obtain ⟨sz, hsz, h1⟩ := C.bind_eq_ok.mp h1
  split at h1
  · simp only [C.ok.injEq, Prod.mk.injEq] at h1
    rw [← h1.2] at hneg; simp [ERR_2BIG] at hneg
  rename_i hbig
  split at h1
  · simp only [C.ok.injEq, Prod.mk.injEq] at h1
    rw [← h1.2] at hneg; simp [ERR_ARG] at hneg
  split at h1
  · simp at h1
  rename_i hne
  obtain ⟨⟨d, tst⟩, hset, h1⟩ := C.bind_eq_ok.mp h1
  simp only [C.ok.injEq, Prod.mk.injEq] at h1
  obtain ⟨rfl, rfl⟩ := h1
  have hidq : t.nextevent = S.id := by
    have := congrArg (fun x => i32 (leNat x)) hrep
    rw [i32_leNat_le4 (by omega), i32_leNat_le4 (by omega)] at this
    exact this
  rw [hi, tag?_natCast] at ht
  have hlen := (List.getElem?_eq_some_iff.mp ht).1
  obtain ⟨t1, ht1, hb1⟩ := hd
  have hset' : ∀ t' : Tag, (s.setTag S.h.index t').db[S.i]? = some t' := by
    intro t'
    simp only [Server.setTag, hi, Int.toNat_natCast]
    rw [List.getElem?_set_self hlen]
  have e1 := (hset' _).symm.trans ht1
  simp only [Option.some.injEq] at e1
  have hb : t.data = .mem b := by rw [← e1] at hb1; exact hb1
  obtain ⟨sz', hsz', hu, -⟩ := tagGetSize_u32 (hr.wf.tag S.i t ht) hb
  rw [hsz] at hsz'
  simp only [C.ok.injEq] at hsz'
  subst hsz'
  have hfit : S.h.byte + S.h.size ≤ b.length := by
    rw [hu] at hbig
    unfold u32 at hbig
    omega
  have hblk : t.data.block = b := by rw [hb]; rfl
  rw [hblk] at hset
  refine ⟨⟨_, { id := t.nextevent, byte := i32 S.h.byte, bit := S.h.bit,
                count := i32 S.h.count, size := S.h.size, dtype := S.h.type, etype := S.et,
                data := d, test := tst, notify := m.uid }, b, hset' _, ?_, hb, List.mem_cons_self .., ?_,
    ?_, hfit, fun _ _ => rfl, ?_⟩⟩
  · dsimp only; split <;> exact hv
  · simp only [Sub.ev, hidq]
  · obtain ⟨hmm, hfd⟩ := modByFd_some hm
    rw [hst]
    exact ⟨_, stat_mem hmm, rfl, hfd⟩
  · exact .start (s := s) (by unfold Sub.ev; exact hset) hfit

/-- A successful write. -/
theorem watching_write {S : Sub} {s s' : Server} {c : Look} {H : List Look} {fd off : Int} {len : Nat} {q : Req}
    (hr : Reachable s) (W : Watching S s c H) (hz : S.h.size + 16 ≤ DAX_MSGMAX) (hs : 0 < S.h.size) (hm : MapFree s S.i)
    (hq : q.writes S.i off len) (h0 : 0 ≤ off) (hpos : 0 < len)
    (hh : handle s fd q = .ok (s', .resp [])) :
    (S.touched off len → ∃ b, TagData s' S.i b ∧
      Watching S s' ⟨b, !(notices s s' S.i S.id).isEmpty, off, len⟩ (c :: H)) ∧
    (¬ S.touched off len → notices s s' S.i S.id = [] ∧ Watching S s' c H) ∧
    (∀ n ∈ notices s s' S.i S.id, n.fd = S.fd ∧ n.etype = S.et) ∧
    (notices s s' S.i S.id).length ≤ 1 := by
  have hst : s'.stat = s.stat := by
    refine (handle_path_notReg ?_ hr.modsOK hh).stat hr.modsOK
    rcases hq with ⟨d, rfl, rfl⟩ | ⟨d, m, rfl, rfl, hml⟩ <;> simp
  obtain ⟨t, ev, b, ht, hv, hb, hev, hcore, ⟨x, hx, hxu, hxf⟩, hfit, hcon, hch⟩ := W.ex
  have hx' : x ∈ s'.stat := by rw [hst]; exact hx
  obtain ⟨hsm, hin, d, hdl, hd⟩ := writes_done hr.wf hq h0 ht hv hb hm hh
  obtain ⟨t0, b0, b', evs, ns, rt, ht0, hv0, hb0, hwr, hec, rfl⟩ := hd.ex
  rw [tag?_natCast, ht] at ht0
  cases ht0
  rw [hb] at hb0
  cases hb0
  have hl := wr_length hwr
  have hids := hr.ids ht
  obtain ⟨-, hone⟩ := eventCheck_one hec hids.evLt
  obtain ⟨hno, hyes⟩ := hone ev hev
  have hid : ev.id = S.id := by
    have := congrArg Ev.id hcore; simpa [Sub.ev] using this
  have hsz : ev.size = S.h.size := by
    have := congrArg Ev.size hcore; simpa [Sub.ev] using this
  have het : ev.etype = S.et := by
    have := congrArg Ev.etype hcore; simpa [Sub.ev] using this
  have hby : ev.byte = i32 S.h.byte := by
    have := congrArg Ev.byte hcore; simpa [Sub.ev] using this
  have hov : evOverlap ev off len = evOverlap (S.ev ev.data ev.test) off len := by
    refine evOverlap_congr ?_ ?_
    · rw [hby]; unfold Sub.ev; dsimp only
    · rw [hsz]; unfold Sub.ev; dsimp only
  have hovi := overlap_iff (S := S) (d := ev.data) (t := ev.test) h0 hpos hin hsm hfit hs
  rw [← hov] at hovi
  have hdb : ∀ t' : Tag, (s.db.set S.i t')[S.i]? = some t' := fun t' =>
    List.getElem?_set_self (List.getElem?_eq_some_iff.mp ht).1
  have hnot : notices s { s.setTag (S.i : Int) { t with data := .mem b', events := evs } with
      sent := s.sent ++ ns, ret := rt } S.i S.id = ns.filter (fun n => n.idx = (S.i : Int) ∧ n.id = ev.id) := by
    simp only [notices, List.drop_left, hid]
  rw [hnot]
  have hcon' : ∀ k, S.has k → (k : Int) < off ∨ off + len ≤ k → b'[k]? = c.content[k]? := by
    intro k hk hko
    rw [wr_get hwr, if_neg (by omega)]
    exact hcon k hk
  refine ⟨fun htch => ?_, fun htch => ?_, ?_⟩
  · obtain ⟨hit, test', hh1, hmem, hf, htr⟩ := hyes (hovi.mpr htch)
    refine ⟨b', ⟨{ t with data := .mem b', events := evs }, hdb _, rfl⟩, ?_⟩
    have hhit : (!(ns.filter (fun n => n.idx = (S.i : Int) ∧ n.id = ev.id)).isEmpty) = hit := by
      cases hit with
      | false => rw [hf rfl]; rfl
      | true =>
        obtain ⟨n0, hsend, hn0⟩ := htr rfl
        obtain ⟨n, rfl⟩ := sendEvent_one (by rw [hsz]; exact hz) hsend
        rw [hn0]; rfl
    rw [hhit]
    refine ⟨⟨{ t with data := .mem b', events := evs }, { ev with test := test' }, b', hdb _, hv, rfl, hmem, ?_,
      ⟨x, hx', hxu, hxf⟩, hl ▸ hfit, fun _ _ => rfl, ?_⟩⟩
    · simp only [Sub.ev, Ev.mk.injEq] at hcore ⊢
      simp_all
    · refine .look (b := b') hch htch h0 (by omega) (by omega) (by omega) hcon' ?_
      rw [← hh1]
      exact (evHit_sub hcore).symm
  · have hfl : evOverlap ev off len = false := by
      cases hx : evOverlap ev off len with
      | false => rfl
      | true => exact absurd (hovi.mp hx) htch
    obtain ⟨hmem, hnil⟩ := hno hfl
    refine ⟨hnil, ⟨⟨{ t with data := .mem b', events := evs }, ev, b', hdb _, hv, rfl, hmem, hcore,
      ⟨x, hx', hxu, hxf⟩, hl ▸ hfit, ?_, hch⟩⟩⟩
    intro k hk
    refine hcon' k hk ?_
    apply Classical.byContradiction
    intro hcc
    exact htch ⟨k, by omega, by omega, hk.1, hk.2⟩
  · cases hov' : evOverlap ev off len with
    | false => rw [(hno hov').2]; simp
    | true =>
      obtain ⟨hit, test', hh1, hmem, hf, htr⟩ := hyes hov'
      cases hit with
      | false => rw [hf rfl]; simp
      | true =>
        obtain ⟨n0, hsend, hn0⟩ := htr rfl
        obtain ⟨n, rfl⟩ := sendEvent_one (by rw [hsz]; exact hz) hsend
        rw [hn0]
        refine ⟨fun y hy => ?_, by simp⟩
        obtain ⟨-, -, h3, m, hm1, hm2⟩ := sendEvent_ids hsend y hy
        refine ⟨?_, by rw [h3, het]⟩
        rw [hm2, ← hxf]
        exact stat_uid hr.modsOK hx (by rw [hxu]; exact hm1)

/-- Other requests. -/
theorem watching_other {S : Sub} {s s' : Server} {c : Look} {H : List Look} {fd : Int} {q : Req} {r : Reply}
    (hr : Reachable s) (W : Watching S s c H) (hm : MapFree s S.i) (hq : q.away S.i S.id)
    (hh : handle s fd q = .ok (s', r)) : Watching S s' c H := by
  obtain ⟨hmild, htgt, hnr⟩ := away_mild hq
  have hst : s'.stat = s.stat := (handle_path_notReg hnr hr.modsOK hh).stat hr.modsOK
  have hids : ∀ (i : Nat) (t : Tag), s.db[i]? = some t → IdsOK i t := fun _ _ h => hr.ids h
  obtain ⟨t, ev, b, ht, hv, hb, hev, hcore, ⟨x, hx, hxu, hxf⟩, hfit, hcon, hch⟩ := W.ex
  have hquiet : q.quiet = true := by cases q <;> first | rfl | exact absurd hq (by simp [Req.away])
  have henv := (handle_quiet hquiet hh).env
  obtain ⟨t1, ht1, hs1, -⟩ := mild_reads hmild htgt hm.2 hids
    (fun u hu => by rw [ht] at hu; cases hu; exact hv) hh t ht
  obtain ⟨t2, ht2, he2⟩ := away_evKeep hq hm.2 hids hh t ht
  rw [ht1] at ht2
  cases ht2
  obtain ⟨ev', hev', heq⟩ := he2 ev hev (by have := congrArg Ev.id hcore; exact this)
  simp only [Ev.mk.injEq, true_and] at heq
  obtain ⟨q1, q2, q3, q4, q5, q6, q7, q8, q9, q10⟩ := heq
  refine ⟨⟨t1, ev', b, ht1, by rw [hs1.virt]; exact hv, by rw [hs1.data]; exact hb, hev', ?_,
    ⟨x, by rw [hst]; exact hx, by rw [q10]; exact hxu, hxf⟩, hfit, hcon, ?_⟩⟩
  · simp only [Sub.ev, Ev.mk.injEq] at hcore ⊢
    simp_all
  · rw [henv, q8, q9]; exact hch

theorem TagData.unique {s : Server} {i : Nat} {a b : List Byte} (h1 : TagData s i a) (h2 : TagData s i b) : a = b := by
  obtain ⟨t, ht, ha⟩ := h1
  obtain ⟨u, hu, hb⟩ := h2
  rw [ht] at hu
  cases hu
  rw [ha] at hb
  exact Store.mem.inj hb

/-- The history of a subscription is what the server remembers. -/
theorem seen_inv {S : Sub} {s : Server} {H : List Look} (hz : S.Sane) (h : Seen S s H) :
    ∃ c H', H = c :: H' ∧ Watching S s c H' := by
  induction h with
  | start hr hi hid hh hd => exact ⟨_, _, rfl, watching_start hr hi hid hz.1 hh hd⟩
  | write h hm hq h0 hh hd ht ih =>
    obtain ⟨c, H', rfl, W⟩ := ih
    obtain ⟨b, hb, hw⟩ := (watching_write (seen_reachable h) W hz.2.2 hz.2.1 hm hq h0 (touched_size ht).2 hh).1 ht
    obtain rfl := hd.unique hb
    exact ⟨_, _, rfl, hw⟩
  | miss h hm hq h0 hp hh ht ih =>
    obtain ⟨c, H', rfl, W⟩ := ih
    exact ⟨c, H', rfl, ((watching_write (seen_reachable h) W hz.2.2 hz.2.1 hm hq h0 hp hh).2.1 ht).2⟩
  | other h hm hq hh ih =>
    obtain ⟨c, H', rfl, W⟩ := ih
    exact ⟨c, H', rfl, watching_other (seen_reachable h) W hm hq hh⟩

/-- What a successful write does to a subscription. -/
theorem write_outcome {S : Sub} {s s' : Server} {H : List Look} {fd off : Int} {len : Nat} {q : Req} {b : List Byte}
    (hz : S.Sane) (h : Seen S s H) (hm : MapFree s S.i) (hq : q.writes S.i off len) (h0 : 0 ≤ off) (hpos : 0 < len)
    (hh : handle s fd q = .ok (s', .resp [])) (hd : TagData s' S.i b) :
    ∃ c H', H = c :: H' ∧ (∀ n ∈ notices s s' S.i S.id, n.fd = S.fd ∧ n.etype = S.et) ∧
      (notices s s' S.i S.id).length ≤ 1 ∧
      ((S.touched off len ∧ ∃ e data test,
          Chain S e data (⟨b, !(notices s s' S.i S.id).isEmpty, off, len⟩ :: c :: H') test) ∨
       (¬ S.touched off len ∧ notices s s' S.i S.id = [] ∧ (∀ k, S.has k → b[k]? = c.content[k]?) ∧
          ∃ e data test, Chain S e data (c :: H') test)) := by
  obtain ⟨c, H', rfl, W⟩ := seen_inv hz h
  obtain ⟨h1, h2, h3, h4⟩ := watching_write (seen_reachable h) W hz.2.2 hz.2.1 hm hq h0 hpos hh
  refine ⟨c, H', rfl, h3, h4, ?_⟩
  by_cases ht : S.touched off len
  · refine .inl ⟨ht, ?_⟩
    obtain ⟨b1, hb1, W1⟩ := h1 ht
    obtain rfl := hd.unique hb1
    obtain ⟨t, ev, _, _, _, _, _, _, _, _, _, hch⟩ := W1.ex
    exact ⟨_, _, _, hch⟩
  · obtain ⟨hn, W1⟩ := h2 ht
    obtain ⟨t, ev, b1, ht1, _, hb1, _, _, _, _, hcon, hch⟩ := W1.ex
    obtain rfl := hd.unique ⟨t, ht1, hb1⟩
    exact .inr ⟨ht, hn, hcon, _, _, _, hch⟩

/-! ## The loops over bits -/

theorem getB_ok {b : List Byte} {i : Int} {x : Byte} (h : getB b i = .ok x) : 0 ≤ i ∧ b[i.toNat]? = some x := by
  unfold getB at h
  split at h
  · split at h
    · simp_all
    · simp at h
  · simp at h

theorem bitAt_get {b : List Byte} {p : Nat} {x : Byte} (h : b[p / 8]? = some x) : bitAt b p = x.getLsbD (p % 8) := by
  simp [bitAt, bitOf, h]

theorem bitAt_set {b : List Byte} {p q : Nat} {x y : Byte} (h : b[p / 8]? = some x) :
    bitAt (b.set (p / 8) y) q = if q / 8 = p / 8 then y.getLsbD (q % 8) else bitAt b q := by
  have hl := (List.getElem?_eq_some_iff.mp h).1
  unfold bitAt bitOf
  by_cases he : q / 8 = p / 8
  · rw [if_pos he, he, List.getElem?_set_self hl]
  · rw [if_neg he, List.getElem?_set_ne (fun h => he h.symm)]

theorem and_bitMask {a : Byte} {k : Nat} (hk : k < 8) : (a &&& bitMask k) = if a.getLsbD k then bitMask k else 0 := by
  apply BitVec.eq_of_getLsbD_eq
  intro i hi
  unfold bitMask
  split <;> simp only [BitVec.getLsbD_and, BitVec.getLsbD_twoPow]
  · by_cases h : i = k
    · subst h; simp_all
    · have : ¬ k = i := fun e => h e.symm
      simp [this]
  · by_cases h : i = k
    · subst h; simp_all
    · have : ¬ k = i := fun e => h e.symm
      simp [this]

theorem bitMask_ne {k : Nat} (hk : k < 8) : bitMask k ≠ 0 := by
  intro h
  have := congrArg (fun x => x.getLsbD k) h
  simp [bitMask, hk] at this

theorem and_bitMask_zero {a : Byte} {k : Nat} (hk : k < 8) : (a &&& bitMask k) = 0 ↔ a.getLsbD k = false := by
  rw [and_bitMask hk]
  have := bitMask_ne hk
  cases a.getLsbD k
  · simp
  · simpa using this

theorem set_bit {a : Byte} {k j : Nat} (hj : j < 8) : (a ||| bitMask k).getLsbD j = if j = k then true else a.getLsbD j := by
  simp only [bitMask, BitVec.getLsbD_or, BitVec.getLsbD_twoPow]
  by_cases h : j = k
  · subst h; simp [hj]
  · have : ¬ k = j := fun e => h e.symm
    simp [h, this]

theorem clear_bit {a : Byte} {k j : Nat} (hj : j < 8) : (a &&& ~~~ bitMask k).getLsbD j = if j = k then false else a.getLsbD j := by
  simp only [bitMask, BitVec.getLsbD_and, BitVec.getLsbD_not, BitVec.getLsbD_twoPow]
  by_cases h : j = k
  · subst h; simp [hj]
  · have : ¬ k = j := fun e => h e.symm
    simp [h, this, hj]

/-- The loop of a change event. -/
theorem bitLoop_change {data : List Byte} {base : Nat} : ∀ (r p : Nat) (test : List Byte) (hit : Bool) {hit' : Bool}
    {test' : List Byte}, bitLoop stepChange data (base : Int) r p test hit = .ok (hit', test') →
    (hit' = true ↔ hit = true ∨ ∃ q, p ≤ q ∧ q < p + r ∧ bitAt test q ≠ bitAt data (8 * base + q)) ∧
    (∀ q, p ≤ q → q < p + r → bitAt test' q = bitAt data (8 * base + q)) ∧
    (∀ q, bitAt test' q = bitAt test q ∨ bitAt test' q = bitAt data (8 * base + q)) := by
  intro r
  induction r with
  | zero =>
    intro p test hit hit' test' h
    simp only [bitLoop, C.ok.injEq, Prod.mk.injEq] at h
    obtain ⟨rfl, rfl⟩ := h
    refine ⟨⟨.inl, ?_⟩, fun q _ _ => by omega, fun _ => .inl rfl⟩
    rintro (h | ⟨q, _, _, _⟩)
    · exact h
    · omega
  | succ r ih =>
    intro p test hit hit' test' h
    simp only [bitLoop] at h
    obtain ⟨a, ha, h⟩ := C.bind_eq_ok.mp h
    obtain ⟨b, hb, h⟩ := C.bind_eq_ok.mp h
    obtain ⟨-, ha⟩ := getB_ok ha
    obtain ⟨-, hb⟩ := getB_ok hb
    have e1 : ((p / 8 : Nat) : Int).toNat = p / 8 := by omega
    have e2 : ((base : Int) + (p / 8 : Nat)).toNat = (8 * base + p) / 8 := by omega
    rw [e1] at ha
    rw [e2] at hb
    have hm : (8 * base + p) % 8 = p % 8 := by omega
    have hk : p % 8 < 8 := Nat.mod_lt _ (by omega)
    have hpa := bitAt_get ha
    have hpb := bitAt_get hb
    rw [hm] at hpb
    have hds : ∀ q, q / 8 = p / 8 → bitAt data (8 * base + q) = b.getLsbD (q % 8) := by
      intro q hq
      have : (8 * base + q) / 8 = (8 * base + p) / 8 := by omega
      rw [← this] at hb
      rw [bitAt_get hb]
      congr 1; omega
    obtain ⟨i1, i2, i3⟩ := ih _ _ _ h
    by_cases hne : bitAt test p = bitAt data (8 * base + p)
    · have hs : stepChange a b (p % 8) = (false, a) := by
        unfold stepChange
        rw [if_neg]
        rw [and_bitMask hk, and_bitMask hk, ← hpa, ← hpb, hne]
        simp
      have hself : test.set (p / 8) a = test := by
        obtain ⟨hl, rfl⟩ := List.getElem?_eq_some_iff.mp ha
        exact List.set_getElem_self hl
      rw [hs] at i1 i3
      simp only [hself, Bool.or_false] at i1 i3
      refine ⟨?_, ?_, i3⟩
      · rw [i1]
        constructor
        · rintro (h | ⟨q, h1, h2, h3⟩)
          · exact .inl h
          · exact .inr ⟨q, by omega, by omega, h3⟩
        · rintro (h | ⟨q, h1, h2, h3⟩)
          · exact .inl h
          · by_cases hq : q = p
            · rw [hq] at h3; exact absurd hne h3
            · exact .inr ⟨q, by omega, by omega, h3⟩
      · intro q h1 h2
        by_cases hq : q = p
        · subst hq
          rcases i3 q with h | h
          · rw [h, hne]
          · exact h
        · exact i2 q (by omega) (by omega)
    · have hs : stepChange a b (p % 8) = (true, b) := by
        unfold stepChange
        rw [if_pos]
        rw [and_bitMask hk, and_bitMask hk, ← hpa, ← hpb]
        have hz := bitMask_ne hk
        clear i1 i2 i3 ih hds
        revert hne
        cases bitAt test p <;> cases bitAt data (8 * base + p)
        · simp
        · intro _ h; exact hz h.symm
        · intro _ h; exact hz h
        · simp
      rw [hs] at i1 i3
      have hset : ∀ q, bitAt (test.set (p / 8) b) q = bitAt test q ∨ bitAt (test.set (p / 8) b) q = bitAt data (8 * base + q) := by
        intro q
        rw [bitAt_set ha]
        split
        · rename_i hq; exact .inr (hds q hq).symm
        · exact .inl rfl
      refine ⟨?_, ?_, ?_⟩
      · rw [i1]
        simp only [Bool.or_true, true_or, true_iff]
        exact .inr ⟨p, by omega, by omega, hne⟩
      · intro q h1 h2
        by_cases hq : q = p
        · subst hq
          rcases i3 q with h | h
          · rw [h, bitAt_set ha, if_pos rfl, hds q rfl]
          · exact h
        · exact i2 q (by omega) (by omega)
      · intro q
        rcases i3 q with h | h
        · rcases hset q with h2 | h2
          · exact .inl (h.trans h2)
          · exact .inr (h.trans h2)
        · exact .inr h

/-- The loops of set and reset events. -/
theorem bitLoop_edge {step : Byte → Byte → Nat → Bool × Byte} {f : Bool → Bool → Bool} {g : Bool → Bool}
    (hf : ∀ a b k, k < 8 → (step a b k).1 = f (a.getLsbD k) (b.getLsbD k))
    (hg : ∀ a b k j, k < 8 → j < 8 → (step a b k).2.getLsbD j = if j = k then g (b.getLsbD k) else a.getLsbD j)
    {data : List Byte} {base : Nat} : ∀ (r p : Nat) (test : List Byte) (hit : Bool) {hit' : Bool}
    {test' : List Byte}, bitLoop step data (base : Int) r p test hit = .ok (hit', test') →
    (hit' = true ↔ hit = true ∨ ∃ q, p ≤ q ∧ q < p + r ∧ f (bitAt test q) (bitAt data (8 * base + q)) = true) ∧
    (∀ q, bitAt test' q = if p ≤ q ∧ q < p + r then g (bitAt data (8 * base + q)) else bitAt test q) := by
  intro r
  induction r with
  | zero =>
    intro p test hit hit' test' h
    simp only [bitLoop, C.ok.injEq, Prod.mk.injEq] at h
    obtain ⟨rfl, rfl⟩ := h
    refine ⟨⟨.inl, ?_⟩, fun q => by rw [if_neg (by omega)]⟩
    rintro (h | ⟨q, _, _, _⟩)
    · exact h
    · omega
  | succ r ih =>
    intro p test hit hit' test' h
    simp only [bitLoop] at h
    obtain ⟨a, ha, h⟩ := C.bind_eq_ok.mp h
    obtain ⟨b, hb, h⟩ := C.bind_eq_ok.mp h
    obtain ⟨-, ha⟩ := getB_ok ha
    obtain ⟨-, hb⟩ := getB_ok hb
    have e1 : ((p / 8 : Nat) : Int).toNat = p / 8 := by omega
    have e2 : ((base : Int) + (p / 8 : Nat)).toNat = (8 * base + p) / 8 := by omega
    rw [e1] at ha
    rw [e2] at hb
    have hm : (8 * base + p) % 8 = p % 8 := by omega
    have hk : p % 8 < 8 := Nat.mod_lt _ (by omega)
    have hpa := bitAt_get ha
    have hpb := bitAt_get hb
    rw [hm] at hpb
    obtain ⟨i1, i2⟩ := ih _ _ _ h
    have hset : ∀ q, bitAt (test.set (p / 8) (step a b (p % 8)).2) q =
        if q = p then g (bitAt data (8 * base + p)) else bitAt test q := by
      intro q
      rw [bitAt_set ha]
      by_cases hq : q / 8 = p / 8
      · rw [if_pos hq, hg _ _ _ _ hk (Nat.mod_lt _ (by omega))]
        by_cases hqp : q = p
        · rw [if_pos hqp, if_pos (by rw [hqp]), hpb]
        · rw [if_neg hqp, if_neg (by omega)]
          rw [← hq] at ha
          rw [bitAt_get ha]
      · rw [if_neg hq, if_neg (fun h => hq (by rw [h]))]
    have hfp : (step a b (p % 8)).1 = f (bitAt test p) (bitAt data (8 * base + p)) := by rw [hf _ _ _ hk, hpa, hpb]
    refine ⟨?_, ?_⟩
    · rw [i1, hfp, Bool.or_eq_true]
      constructor
      · rintro ((h | h) | ⟨q, h1, h2, h3⟩)
        · exact .inl h
        · exact .inr ⟨p, by omega, by omega, h⟩
        · rw [hset, if_neg (by omega)] at h3
          exact .inr ⟨q, by omega, by omega, h3⟩
      · rintro (h | ⟨q, h1, h2, h3⟩)
        · exact .inl (.inl h)
        · by_cases hq : q = p
          · rw [hq] at h3; exact .inl (.inr h3)
          · refine .inr ⟨q, by omega, by omega, ?_⟩
            rw [hset, if_neg hq]; exact h3
    · intro q
      rw [i2, hset]
      by_cases hq : q = p
      · subst hq
        rw [if_neg (by omega), if_pos rfl, if_pos (by omega)]
      · rw [if_neg hq]
        by_cases hr : p ≤ q ∧ q < p + (r + 1)
        · rw [if_pos (by omega), if_pos hr]
        · rw [if_neg (by omega), if_neg hr]

end Dax
