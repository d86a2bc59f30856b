import Verif.Spec.LibUtil
import Verif.Lemmas.LuaTag
import Verif.Lemmas.Status
import Verif.Lemmas.Leave
import Verif.Lemmas.Maps
import Verif.Lemmas.Api
/-!
# The type of status tags, and the tag `_my_tagname`
-/
set_option autoImplicit false
namespace Dax.LibUtil
open LibPath LibData

/-- The members of the type `_module`. -/
def modMembers : List Member :=
  [⟨nm "starttime", DAX_TIME, 1⟩, ⟨nm "id", DAX_DINT, 1⟩, ⟨nm "running", DAX_BOOL, 1⟩, ⟨nm "faulted", DAX_BOOL, 1⟩, ⟨nm "status", DAX_CHAR, 64⟩,
   ⟨nm "stop", DAX_BOOL, 1⟩, ⟨nm "run", DAX_BOOL, 1⟩, ⟨nm "reload", DAX_BOOL, 1⟩, ⟨nm "kill", DAX_BOOL, 1⟩]

theorem init_modType (e : Env) : (initServer e >>= fun s => .ok ((s.cdts[0]?).map (fun c => (c.name, c.members)), serialize s.cdts 0x80000000, typeSize s.cdts 0x80000000)) =
    .ok (some (nm "_module", modMembers), .ok (some modCdtText), .ok 78) := by
  kernel_rfl

theorem init_my (e : Env) : (initServer e >>= fun s => .ok ((s.db[10]?).map (fun t => (t.data, t.attr.virt)))) = .ok (some (.vMyName, true)) := by
  kernel_rfl

theorem modType_ent {s : Server} (h : Reachable s) : (∃ d, s.cdts[0]? = some d ∧ d.members = modMembers) ∧ serialize s.cdts 0x80000000 = .ok (some modCdtText) ∧
    typeSize s.cdts 0x80000000 = .ok 78 := by
  obtain ⟨e, s0, hi, st⟩ := h.from_init
  have h0 := init_modType e
  rw [hi] at h0
  simp only [C.ok_bind, C.ok.injEq, Prod.mk.injEq, Option.map_eq_some_iff] at h0
  obtain ⟨⟨c, hc, hn, hm⟩, h1, h2⟩ := h0
  obtain ⟨c', hc', -, hm'⟩ := st.ev.cdts 0 c hc
  refine ⟨⟨c', hc', hm'.trans hm⟩, serialize_ext st.ev.cdts h1, typeSize_ext st.ev.cdts h2 ?_⟩
  unfold checkType
  have : isCustom (stripQueue 0x80000000) = true ∧ cdtToIndex (stripQueue 0x80000000) = 0 := by decide
  have hl := (List.getElem?_eq_some_iff.mp hc).1
  simp [this.1, this.2, hl]

theorem my_virtual {s : Server} (h : Reachable s) : ∃ t, s.db[10]? = some t ∧ (t.data = .freed ∨ t.data = .vMyName ∧ t.attr.virt = true) := by
  obtain ⟨e, s0, hi, p⟩ := h.path
  have h0 := init_my e
  rw [hi] at h0
  simp only [C.ok_bind, C.ok.injEq, Option.map_eq_some_iff, Prod.mk.injEq] at h0
  obtain ⟨t, ht, hd, hv⟩ := h0
  refine p.tag_inv (J := fun t => t.data = .freed ∨ t.data = .vMyName ∧ t.attr.virt = true) (fun s t t' hj hm => ?_) ht (.inr ⟨hd, hv⟩)
  cases hm with
  | write => simp_all
  | qwrite => simp_all
  | qread => simp_all
  | restore => simp_all
  | attr =>
    rcases hj with hj | ⟨hj, hv⟩
    · exact .inl hj
    · refine .inr ⟨hj, ?_⟩
      dsimp only
      unfold attrAfter
      repeat' split
      all_goals exact hv
  | special => simp_all
  | ovrFlags => simp_all
  | ovrNew => simp_all
  | ovrSet => simp_all
  | ovrFree => simp_all
  | evAdd => simp_all
  | evDel => simp_all
  | evOpt => simp_all
  | mapAdd => simp_all
  | mapDel => simp_all
  | grow hd hc hf =>
    rcases hj with hj | ⟨hj, hv⟩
    · rw [hj] at hd; simp [reallocStore] at hd
    · rw [hj] at hd
      unfold reallocStore at hd
      dsimp only at hd
      split at hd
      · cases hd
      · simp only [C.ok.injEq] at hd
        exact .inr ⟨hd.symm, hv⟩
  | clear => simp_all
  | kill => simp_all

theorem validate_plain {n : Name} (h : validateName n = 0) : PlainName n := by
  have key : ∀ b : Byte, (Dax.isAlpha b = true ∨ b = underscore ∨ Dax.isDigit b = true) → b ≠ 46#8 ∧ b ≠ 91#8 := by
    intro b hb; constructor <;> (rintro rfl; revert hb; decide)
  have key2 : ∀ b : Byte, (Dax.isAlpha b = true ∨ b = underscore) → ¬ (48 ≤ b.toNat ∧ b.toNat ≤ 57) := by decide +kernel
  unfold validateName at h
  split at h
  · exact absurd h (by decide)
  rename_i hl
  split at h
  · exact absurd h (by decide)
  rename_i c cs
  split at h
  · exact absurd h (by decide)
  rename_i h1
  have hc : Dax.isAlpha c = true ∨ c = underscore := by
    by_cases ha : Dax.isAlpha c = true
    · exact .inl ha
    · simp only [ha, Bool.not_false, Bool.true_and, decide_eq_true_eq, Decidable.not_not] at h1
      simp_all
  split at h
  · rename_i h2
    have hall : ∀ b ∈ c :: cs, b ≠ 46#8 ∧ b ≠ 91#8 := by
      intro b hb
      simp only [List.mem_cons] at hb
      rcases hb with rfl | hb
      · exact key b (by rcases hc with h | h <;> simp [h])
      · have := List.all_eq_true.mp h2 b hb
        simp only [Bool.or_eq_true, decide_eq_true_eq] at this
        exact key b (by rcases this with (h | h) | h <;> simp [h])
    refine ⟨fun hm => (hall _ hm).1 rfl, fun hm => (hall _ hm).2 rfl, fun x hx => ?_⟩
    simp only [List.head?_cons, Option.some.injEq] at hx
    subst hx
    exact key2 c hc
  · exact absurd h (by decide)

theorem modType_fetchable {s : Server} (h : Reachable s) : Fetchable s 0x80000000 := by
  refine .mk _ (nm "_module") [(nm "starttime", nm "TIME", 1), (nm "id", nm "DINT", 1), (nm "running", nm "BOOL", 1), (nm "faulted", nm "BOOL", 1),
      (nm "status", nm "CHAR", 64), (nm "stop", nm "BOOL", 1), (nm "run", nm "BOOL", 1), (nm "reload", nm "BOOL", 1), (nm "kill", nm "BOOL", 1)] (fun _ => 0)
      ⟨⟨by decide, by decide⟩, fun fd => ?_⟩ (by decide) (by decide) (by decide) ?_ ?_
  · exact (hCdtGet_iff (by decide) (by decide)).mpr ⟨rfl, (modType_ent h).2.1.trans (by kernel_rfl), by decide +kernel⟩
  · intro f hf hb
    exfalso; revert f; decide
  · intro f hf hb
    exfalso; revert f; decide

theorem modType_elem {s : Server} (h : Reachable s) : ElemBits s.cdts 0x80000000 624 :=
  .inr (.inr ⟨⟨by decide, by decide⟩, 78, (modType_ent h).2.2, rfl⟩)

theorem elem_bool (tbl : List Cdt) : ElemBits tbl DAX_BOOL 1 := .inl ⟨rfl, rfl⟩
theorem elem_char (tbl : List Cdt) : ElemBits tbl DAX_CHAR 8 := .inr (.inl ⟨1, by decide, rfl⟩)
theorem elem_dint (tbl : List Cdt) : ElemBits tbl DAX_DINT 32 := .inr (.inl ⟨4, by decide, rfl⟩)
theorem elem_time (tbl : List Cdt) : ElemBits tbl DAX_TIME 64 := .inr (.inl ⟨8, by decide, rfl⟩)

theorem modType_ends (tbl : List Cdt) : Ends tbl modMembers 0 620 :=
  .cons _ _ 0 64 620 (elem_time tbl) <| .cons _ _ 64 32 620 (elem_dint tbl) <| .cons _ _ 96 1 620 (elem_bool tbl) <| .cons _ _ 97 1 620 (elem_bool tbl) <|
  .cons _ _ 98 8 620 (elem_char tbl) <| .cons _ _ 616 1 620 (elem_bool tbl) <| .cons _ _ 617 1 620 (elem_bool tbl) <| .cons _ _ 618 1 620 (elem_bool tbl) <|
  .cons _ _ 619 1 620 (elem_bool tbl) (.nil 620)

theorem modType_fits {s : Server} (h : Reachable s) : Fits 248 s 0x80000000 := by
  obtain ⟨d, hd, hm⟩ := (modType_ent h).1
  refine .mk _ d 620 (modType_fetchable h) hd (by rw [hm]; exact modType_ends _) (by omega) (by omega) (by rw [hm]; decide) (fun m hm' hc => ?_)
  exfalso
  rw [hm] at hm'
  have : ∀ m ∈ modMembers, m.type < 2147483648 := by decide
  have := this m hm'
  have := hc.1
  omega

theorem flag_before (tbl : List Cdt) {mem : Name} {pos : Nat} (h : (mem, pos) ∈ flagBits) : Before tbl modMembers 0 mem ⟨mem, DAX_BOOL, 1⟩ pos := by
  simp only [flagBits, List.mem_cons, List.not_mem_nil, or_false, Prod.mk.injEq] at h
  rcases h with ⟨rfl, rfl⟩ | ⟨rfl, rfl⟩ | ⟨rfl, rfl⟩ | ⟨rfl, rfl⟩ | ⟨rfl, rfl⟩ | ⟨rfl, rfl⟩
  · exact .later _ _ 0 64 _ _ _ (by decide) (elem_time tbl) <| .later _ _ 64 32 _ _ _ (by decide) (elem_dint tbl) <| .here _ _ 96
  · exact .later _ _ 0 64 _ _ _ (by decide) (elem_time tbl) <| .later _ _ 64 32 _ _ _ (by decide) (elem_dint tbl) <|
      .later _ _ 96 1 _ _ _ (by decide) (elem_bool tbl) <| .here _ _ 97
  · exact .later _ _ 0 64 _ _ _ (by decide) (elem_time tbl) <| .later _ _ 64 32 _ _ _ (by decide) (elem_dint tbl) <|
      .later _ _ 96 1 _ _ _ (by decide) (elem_bool tbl) <| .later _ _ 97 1 _ _ _ (by decide) (elem_bool tbl) <| .later _ _ 98 8 _ _ _ (by decide) (elem_char tbl) <| .here _ _ 616
  · exact .later _ _ 0 64 _ _ _ (by decide) (elem_time tbl) <| .later _ _ 64 32 _ _ _ (by decide) (elem_dint tbl) <|
      .later _ _ 96 1 _ _ _ (by decide) (elem_bool tbl) <| .later _ _ 97 1 _ _ _ (by decide) (elem_bool tbl) <| .later _ _ 98 8 _ _ _ (by decide) (elem_char tbl) <|
      .later _ _ 616 1 _ _ _ (by decide) (elem_bool tbl) <| .here _ _ 617
  · exact .later _ _ 0 64 _ _ _ (by decide) (elem_time tbl) <| .later _ _ 64 32 _ _ _ (by decide) (elem_dint tbl) <|
      .later _ _ 96 1 _ _ _ (by decide) (elem_bool tbl) <| .later _ _ 97 1 _ _ _ (by decide) (elem_bool tbl) <| .later _ _ 98 8 _ _ _ (by decide) (elem_char tbl) <|
      .later _ _ 616 1 _ _ _ (by decide) (elem_bool tbl) <| .later _ _ 617 1 _ _ _ (by decide) (elem_bool tbl) <| .here _ _ 618
  · exact .later _ _ 0 64 _ _ _ (by decide) (elem_time tbl) <| .later _ _ 64 32 _ _ _ (by decide) (elem_dint tbl) <|
      .later _ _ 96 1 _ _ _ (by decide) (elem_bool tbl) <| .later _ _ 97 1 _ _ _ (by decide) (elem_bool tbl) <| .later _ _ 98 8 _ _ _ (by decide) (elem_char tbl) <|
      .later _ _ 616 1 _ _ _ (by decide) (elem_bool tbl) <| .later _ _ 617 1 _ _ _ (by decide) (elem_bool tbl) <| .later _ _ 618 1 _ _ _ (by decide) (elem_bool tbl) <| .here _ _ 619

theorem status_before (tbl : List Cdt) : Before tbl modMembers 0 (nm "status") ⟨nm "status", DAX_CHAR, 64⟩ 98 :=
  .later _ _ 0 64 _ _ _ (by decide) (elem_time tbl) <| .later _ _ 64 32 _ _ _ (by decide) (elem_dint tbl) <|
    .later _ _ 96 1 _ _ _ (by decide) (elem_bool tbl) <| .later _ _ 97 1 _ _ _ (by decide) (elem_bool tbl) <| .here _ _ 98

/-- A handle for a member of a status tag. -/
theorem member_handle {s : Server} (hr : Reachable s) {fd : Int} {byname : Name → Option TagFound} {c : TypeCache} {n mem : Name} {m : Member} {i : Nat} {r e : Nat}
    (hc : Faithful s c) (hb : byname n = some ⟨i, 0x80000000, 1⟩) (hn : PlainName n) (hp : PlainName mem) (hm : Before s.cdts modMembers 0 mem m r)
    (he : ElemBits s.cdts m.type e) (h0 : 0 < m.count) :
    ∃ c' h, tagHandle s fd byname c (n ++ 46#8 :: mem) 0 = .ok (c', h, 0) ∧ Faithful s c' ∧ Points s.cdts h i m.type m.count (place m r) := by
  obtain ⟨d, hd, hdm⟩ := (modType_ent hr).1
  have hd' : s.cdts[0x80000000 - 2147483648]? = some d := hd
  have hpl : Place s.cdts 0x80000000 [⟨mem, none⟩] none m.type (m.count - 0) (place m r + e * 0) :=
    .last _ d ⟨mem, none⟩ m r e ⟨by decide, by decide⟩ hd' (by rw [hdm]; exact hm) he h0
  obtain ⟨c', h, r', h1, h2, h3⟩ := handle_ok hr (fd := fd) (c := c) (byname := byname) (g := ⟨n, none⟩) (tag := ⟨i, 0x80000000, 1⟩) (cnt := 0) (modType_fits hr) hc hb
    (by intro x hx; simp only [List.mem_cons, List.not_mem_nil, or_false] at hx; rcases hx with rfl | rfl; exact hn; exact hp) hpl
    (.last _ _ d _ hd' (by simp)) (modType_elem hr) (fun _ => Nat.le_refl _) (by decide) (by simp)
  have hs : segText ⟨n, none⟩ ++ pathText [⟨mem, none⟩] none = n ++ 46#8 :: mem := by simp [segText, pathText]
  rw [hs] at h1
  have hroom : Room s.cdts 1 0x80000000 [⟨mem, none⟩] := .last _ _
  have hw : wanted (lastIdx [⟨mem, none⟩] none) 0 (m.count - 0) = m.count := by simp [wanted, lastIdx]
  rcases h3 with ⟨rfl, -, h3⟩ | ⟨-, -, h3⟩
  · refine ⟨c', h, h1, h2, ?_⟩
    have := h3.points
    rw [hw] at this
    simpa using this
  · exact absurd ⟨by rw [hw]; omega, hroom⟩ h3


theorem last_low {s : Server} {fd : Int} {c c' : TypeCache} {h h' : Handle} {m : Member} {count r : Int} (hl : Loc h) (hh : lastMember s fd c h m ERR_NOTFOUND count = .ok (c', h', r)) :
    h'.bit < 8 := by
  have key : ∀ g : Handle, g = (if h.type = DAX_BOOL ∧ m.type ≠ DAX_BOOL ∧ h.bit > 0 then { h with byte := u32 (h.byte + 1), bit := 0 } else h) → g.bit < 8 := by
    intro g hg
    subst hg
    split
    · exact Nat.zero_lt_succ 7
    · exact hl.1
  unfold lastMember at hh
  dsimp only at hh
  generalize (if h.type = DAX_BOOL ∧ m.type ≠ DAX_BOOL ∧ h.bit > 0 then { h with byte := u32 (h.byte + 1), bit := 0 } else h) = g at hh key
  have hg := key g rfl
  rw [if_neg (by simp)] at hh
  split at hh
  · simp only [C.ok.injEq, Prod.mk.injEq] at hh
    rw [← hh.2.1]; exact hg
  · split at hh
    · obtain ⟨sz, -, hh⟩ := C.bind_eq_ok.mp hh
      simp only [C.ok.injEq, Prod.mk.injEq] at hh
      rw [← hh.2.1]; exact hg
    · obtain ⟨⟨c1, sz⟩, -, hh⟩ := C.bind_eq_ok.mp hh
      obtain ⟨y, -, hh⟩ := C.bind_eq_ok.mp hh
      simp only [C.ok.injEq, Prod.mk.injEq] at hh
      rw [← hh.2.1]
      first | exact hg | exact Nat.zero_lt_succ 7

/-- The bit in that handle is a bit of one byte. -/
theorem member_low {s : Server} (hr : Reachable s) {fd : Int} {byname : Name → Option TagFound} {c c' : TypeCache} {n mem : Name} {m : Member} {i : Nat} {r e : Nat} {h : Handle}
    (hc : Faithful s c) (hb : byname n = some ⟨i, 0x80000000, 1⟩) (hn : PlainName n) (hp : PlainName mem) (hm : Before s.cdts modMembers 0 mem m r)
    (he : ElemBits s.cdts m.type e) (h0 : 0 < m.count) (hh : tagHandle s fd byname c (n ++ 46#8 :: mem) 0 = .ok (c', h, 0)) : h.bit < 8 := by
  obtain ⟨d, q, K⟩ := (modType_fits hr).known hr.wf
  obtain ⟨d1, hd, hdm⟩ := (modType_ent hr).1
  have hd' : s.cdts[0x80000000 - 2147483648]? = some d1 := hd
  have := K.det hd'; subst this
  have hB : Before s.cdts d1.members 0 mem m r := by rw [hdm]; exact hm
  have hle := (hB.le K.ends he).2
  have hq := K.elem.det (modType_elem hr)
  obtain ⟨c2, h2, f1, f2, f3, f4, f5⟩ := found_ok hr K hc (X := True) (B := 0) rfl (by omega) (g := ⟨mem, none⟩) (gs := []) (b := none) hB hp h0 (h := withIdx ⟨i, 0x80000000, 1⟩) (fd := fd)
    ⟨Nat.zero_lt_succ 7, fun h => absurd rfl h⟩ (.inl rfl)
  obtain ⟨c3, h3, r3, l1, -, -⟩ := last_ok hr f2 f3 he (K.counts m hB.mem) (K.sub m hB.mem) (by
    have := align_place (m := m) (B := 0) (r := r) (P := 8 * h2.byte + h2.bit) rfl (by
      rcases f5 with h | ⟨-, h1, h2, h3⟩
      · exact .inl h
      · exact .inr ⟨h1, h2, h3⟩)
    omega) (cnt := 0) (by decide) (index := none) h0 (fd := fd)
  have hs : segText ⟨n, none⟩ ++ pathText [⟨mem, none⟩] none = n ++ 46#8 :: mem := by simp [segText, pathText]
  have T := tagged_ok (g := ⟨n, none⟩) (gs := [⟨mem, none⟩]) (b := none) hn (by simp) hb
  rw [restText_cons, hs] at T
  have hd2 := head_seg (g := ⟨mem, none⟩) hp [] none
  have hk : parseNextMember s fd ((n ++ 46#8 :: mem).length + 1) c 0x80000000 (withIdx ⟨i, 0x80000000, 1⟩) (segText ⟨mem, none⟩ ++ pathText [] none) 0 = .ok (c3, h3, r3) := by
    rw [Found.last f1]; exact l1
  by_cases hr0 : r3 = 0
  · subst hr0
    have h1 := T.plain hd2 (show isCustom 0x80000000 = true by decide) (by rintro ⟨h1, -⟩; dsimp only at h1; omega) hk rfl
    rw [hh] at h1
    simp only [C.ok.injEq, Prod.mk.injEq] at h1
    rw [h1.2.1]
    exact last_low f3 l1
  · have h1 := T.fail hd2 (show isCustom 0x80000000 = true by decide) (by rintro ⟨h1, -⟩; dsimp only at h1; omega) hk hr0
    rw [hh] at h1
    simp only [C.ok.injEq, Prod.mk.injEq] at h1
    exact absurd h1.2.2.symm hr0

theorem same_name {s : Server} (hw : WF s) {i j : Nat} {n : Name} {a b a' b' : Nat} (h : LiveTag s i n a b) (h' : LiveTag s j n a' b') : i = j ∧ a = a' ∧ b = b' := by
  obtain ⟨t, ht, hn, rfl, rfl⟩ := (liveTag_iff hw).mp h
  obtain ⟨t', ht', hn', rfl, rfl⟩ := (liveTag_iff hw).mp h'
  have h1 := hw.named i t n ht hn
  have h2 := hw.named j t' n ht' hn'
  have h3 := (lookup_mem hw).mpr h1
  rw [(lookup_mem hw).mpr h2] at h3
  simp only [Option.some.injEq] at h3
  subst h3
  rw [ht] at ht'; cases ht'
  exact ⟨rfl, rfl, rfl⟩

theorem takeWhile_name {n rest : List Byte} (h : (0 : Byte) ∉ n) : (n ++ 0 :: rest).takeWhile (· ≠ 0) = n := by
  induction n with
  | nil => simp
  | cons a n ih =>
    simp only [List.mem_cons, not_or] at h
    rw [List.cons_append, List.takeWhile_cons_of_pos (by simpa using fun hh : a = 0 => h.1 hh.symm), ih h.2]

theorem tag0_type {s : Server} (h : Reachable s) : ∃ t, s.db[0]? = some t ∧ t.type = DAX_DINT := by
  obtain ⟨e, s0, hi, st⟩ := h.from_init
  have h0 := init_face e
  rw [hi] at h0
  simp only [C.ok_bind, C.ok.injEq, Prod.mk.injEq] at h0
  have h1 := congrArg (fun l => l[0]?) h0.1
  simp only [List.getElem?_map, List.getElem?_cons_zero, Option.map_eq_some_iff] at h1
  obtain ⟨t, ht, hf⟩ := h1
  obtain ⟨t', ht', hty, -⟩ := st.ev.tag 0 t ht
  exact ⟨t', ht', hty.trans (congrArg (fun x => x.2.1) hf)⟩

/-- What the server answers to a read from `_my_tagname`. -/
theorem my_read {s : Server} {fd : Int} {i : Nat} {n : Name} (ho : Owns s fd i n) : ∃ rest, handle s fd (.tagRead 10 0 33) = .ok (s, .resp (n ++ 0 :: rest)) ∧
    (n ++ 0 :: rest).length = 33 := by
  obtain ⟨hr, m, hm, hti⟩ := ho.status.entry
  have hw := hr.wf
  obtain ⟨t, ht, hd⟩ := my_virtual hr
  obtain ⟨t', ht', hn', -⟩ := (liveTag_iff hw).mp ho.my
  rw [ht] at ht'; cases ht'
  obtain ⟨u, hu, hun, hut, -⟩ := (liveTag_iff hw).mp ho.live
  have hok := hw.tag i u hu
  obtain ⟨hnul, hlen⟩ := validate_nul (hok.valid n hun)
  have hi0 : i ≠ 0 := by
    rintro rfl
    obtain ⟨t0, ht0, hty⟩ := tag0_type hr
    rw [hu] at ht0; cases ht0
    rw [hut] at hty
    exact absurd hty (by decide)
  rcases hd with hd | ⟨hd, hv⟩
  · have := (hw.tag 10 t ht).name.mpr hd
    rw [hn'] at this; simp at this
  have hud : u.data ≠ .freed := fun h => by
    have := hok.name.mpr h
    rw [hun] at this; simp at this
  refine ⟨(s.env.pad (n ++ 0 :: List.replicate (TAGNAME_SIZE - (n.length + 1)) 0) 33).drop (n.length + 1), ?_⟩
  have hTS : TAGNAME_SIZE = 32 := rfl
  have hpad : s.env.pad (n ++ 0 :: List.replicate (TAGNAME_SIZE - (n.length + 1)) 0) 33 =
      n ++ 0 :: (s.env.pad (n ++ 0 :: List.replicate (TAGNAME_SIZE - (n.length + 1)) 0) 33).drop (n.length + 1) := by
    conv => lhs; rw [← List.take_append_drop (n.length + 1) (s.env.pad _ 33)]
    have : (s.env.pad (n ++ 0 :: List.replicate (TAGNAME_SIZE - (n.length + 1)) 0) 33).take (n.length + 1) = n ++ [0] := by
      unfold Env.pad
      rw [List.take_take, Nat.min_eq_left (by omega), List.append_assoc, List.take_append, List.take_of_length_le (by omega), Nat.add_sub_cancel_left]
      rfl
    rw [this, List.append_assoc]
    rfl
  rw [← hpad]
  refine ⟨?_, Env.pad_length _ _ _⟩
  simp only [handle, hTagRead]
  have hrd : tagRead s fd 10 0 33 = .ok (s, .ok (n ++ 0 :: List.replicate (TAGNAME_SIZE - (n.length + 1)) 0)) := by
    unfold tagRead
    have h10 : s.tag? 10 = some t := by rw [show (10 : Int) = ((10 : Nat) : Int) from rfl, tag?_natCast, ht]
    rw [h10]
    dsimp only
    rw [if_pos hv]
    unfold virtRead
    rw [hd]
    dsimp only
    rw [hm]
    dsimp only
    rw [if_neg (by omega), hti, tag?_natCast, hu]
    dsimp only
    rw [hun]
    cases hdu : u.data with
    | freed => exact absurd hdu hud
    | _ => rfl
  rw [hrd]
  simp only [C.ok_bind]
  rw [if_neg, if_neg (by decide)]
  · rfl
  · have : MSG_DATA_SIZE = 4088 := rfl
    simp only [List.length_append, List.length_cons, List.length_replicate]
    omega


theorem found {s : Server} (hw : WF s) {byname : Name → Option TagFound} (ht : Truthful s byname) {i a b : Nat} {n : Name} (hl : LiveTag s i n a b)
    (hs : (byname n).isSome = true) : byname n = some ⟨i, a, b⟩ := by
  obtain ⟨f, hf⟩ := Option.isSome_iff_exists.mp hs
  obtain ⟨j, hj, hl'⟩ := ht n f hf
  obtain ⟨rfl, rfl, rfl⟩ := same_name hw hl' hl
  rw [hf, ← hj]

theorem ownName_ok {s : Server} {fd : Int} {i : Nat} {n : Name} (ho : Owns s fd i n) {byname : Name → Option TagFound} (ht : Truthful s byname)
    (hs : (byname (nm "_my_tagname")).isSome = true) {c : TypeCache} (hc : Faithful s c) :
    ∃ c' r, ownName s fd byname c = .ok (s, c', [(.tagRead 10 0 33, r)], .done 0, some n) ∧ Faithful s c' := by
  obtain ⟨hr, -⟩ := ho.status.entry
  have hw := hr.wf
  have hb := found hw ht ho.my hs
  have hcomp : ¬ Compound DAX_CHAR := fun h => absurd h.1 (by decide)
  obtain ⟨c1, h, r, h1, h2, h3⟩ := tag_ok hr (fd := fd) (cap := 0) (byname := byname) (c := c) (g := ⟨nm "_my_tagname", none⟩) (tag := ⟨10, DAX_CHAR, 33⟩) (cnt := 0) (e := 8)
    (fun h => absurd h hcomp) hc hb (validate_plain (by decide)) (elem_char _) (by decide) (by decide) (by decide) (by decide)
  have hseg : segText ⟨nm "_my_tagname", none⟩ = nm "_my_tagname" := by simp [segText]
  rw [hseg] at h1
  rcases h3 with ⟨rfl, -, -, h3⟩ | ⟨-, -, h3⟩
  · have P := h3.points
    have hw33 : wanted (⟨nm "_my_tagname", none⟩ : Seg).index.isSome 0 33 = 33 := rfl
    rw [hw33] at P
    have hsz : h.size = 33 := by
      have := (P.other (by decide)).2 8 (elem_char _)
      omega
    have hbit := (P.other (by decide)).1
    have hbyte : h.byte = 0 := by
      have := P.at'
      simp at this
      omega
    have hidx : h.index = 10 := P.index
    have hty : h.type = DAX_CHAR := P.type
    obtain ⟨rest, hrd, hlen⟩ := my_read ho
    obtain ⟨u, hu, hun, -⟩ := (liveTag_iff hw).mp ho.live
    obtain ⟨hnul, -⟩ := validate_nul ((hw.tag i u hu).valid n hun)
    have hdr : daxRead s fd h.index ((h.byte + 0) % 4294967296) 33 = .ok (s, [(.tagRead 10 0 33, .resp (n ++ 0 :: rest))], 0, n ++ 0 :: rest) := by
      unfold daxRead
      rw [if_neg (by decide), hidx, hbyte]
      unfold transact
      rw [show i32 ((0 + 0) % 4294967296 : Nat) = 0 from by decide, show ((33 : Nat) : Int) = 33 from rfl, hrd]
      rfl
    have hfm : format s fd false (n ++ 0 :: rest).length c1 DAX_CHAR h.count = .ok (c1, 0) := by
      rfl
    refine ⟨c1, .resp (n ++ 0 :: rest), ?_, h2⟩
    unfold ownName
    rw [show ((0 : Nat) : Int) = 0 from rfl] at h1
    rw [h1]
    simp only [C.ok_bind]
    rw [if_neg (by simp), if_neg (by omega)]
    unfold daxTagRead transfer
    rw [hty, hsz, if_neg (by decide)]
    dsimp only
    rw [hdr]
    simp only [C.ok_bind]
    rw [if_neg (by simp), if_neg (by decide), hfm]
    simp only [C.ok_bind]
    rw [if_neg (by decide), if_neg (by simp), if_pos (by simp), takeWhile_name hnul]
  · exact absurd (by decide) h3

theorem ownMember_ok {s : Server} {fd : Int} {i : Nat} {n : Name} (ho : Owns s fd i n) {byname : Name → Option TagFound} (ht : Truthful s byname)
    (hs : (byname (nm "_my_tagname")).isSome = true) (hs' : (byname n).isSome = true) {c : TypeCache} (hc : Faithful s c) {mem : Name} {m : Member} {r e : Nat}
    (hp : PlainName mem) (hml : mem.length ≤ 30) (hm : Before s.cdts modMembers 0 mem m r) (he : ElemBits s.cdts m.type e) (h0 : 0 < m.count) :
    ∃ c' q h, ownMember s fd byname c (46#8 :: mem) = .ok (s, c', [(.tagRead 10 0 33, q)], .done 0, some h) ∧ Faithful s c' ∧
      Points s.cdts h i m.type m.count (place m r) ∧ h.bit < 8 := by
  obtain ⟨c1, q, h1, h2⟩ := ownName_ok ho ht hs hc
  obtain ⟨hr, -⟩ := ho.status.entry
  have hw := hr.wf
  obtain ⟨u, hu, hun, -⟩ := (liveTag_iff hw).mp ho.live
  have hv := (hw.tag i u hu).valid n hun
  obtain ⟨-, hlen⟩ := validate_nul hv
  obtain ⟨c2, h, h3, h4, h5⟩ := member_handle hr (fd := fd) h2 (found hw ht ho.live hs') (validate_plain hv) hp hm he h0
  refine ⟨c2, q, h, ?_, h4, h5, member_low hr h2 (found hw ht ho.live hs') (validate_plain hv) hp hm he h0 h3⟩
  unfold ownMember
  rw [h1]
  simp only [C.ok_bind]
  have : TAGNAME_SIZE = 32 := rfl
  rw [if_neg (by simp only [List.length_cons]; omega), h3]
  simp

end Dax.LibUtil
