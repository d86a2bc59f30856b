import Verif.Lemmas.LibLuaWrite
import Verif.Props.LibFqn
/-!
# Tags as Lua values (C68)

Full property: a tag read from Lua has, at every element, a Lua value equal to what the tag holds there, and a Lua value written to a tag puts exactly what it has into exactly these elements.  It fails
(the negations are below): REALs lose their fraction when they are read, 64-bit integers without sign become negative or are rounded, TIME is written in 32 bits, numbers out of range are undefined behaviour,
and an array of compound type that is left out unbalances the stack.
-/
set_option autoImplicit false
namespace Dax
open Dax.LibPath Dax.LibData Dax.Lua

theorem lua_small {e n : Nat} (hn : 0 < n) (h : e * n ≤ 2147483600) : e ≤ 2147483600 ∧ 0 + e / 8 * n < 2147483648 := by
  have h1 : e * 1 ≤ e * n := Nat.mul_le_mul_left _ hn
  have h2 : e / 8 * n ≤ e * n := Nat.mul_le_mul_right _ (Nat.div_le_self ..)
  omega

theorem lua_fuel {cap : Nat} {s : Server} (hr : Reachable s) {t : Nat} (hf : Fits cap s t) : t - 2147483648 < s.cdts.length + 1 := by
  obtain ⟨d, q, K⟩ := hf.known hr.wf
  have := (List.getElem?_eq_some_iff.mp K.ent).1
  omega

theorem daxToLua_eq {s : Server} {fd : Int} {c : TypeCache} {t n : Nat} {data : List Byte} :
    daxToLua s fd c t n data = readValue (readStruct s fd data (s.cdts.length + 1)) s fd data ((0 : Nat) : Int) c ⟨[], t, n, ((0 : Nat) : Int), ((0 : Nat) : Int)⟩ := rfl

/-- C68, reading: `daxlua_dax_to_lua` makes a value that has, under every list of keys, what the tag holds at that place.

Missing: REALs whose integer part is not a 64-bit integer (undefined behaviour) and the fractions of the others, LWORDs and ULINTs from 2^53 on (rounded, negative from 2^63 on). -/
theorem C68_read_partial {s : Server} (hr : Reachable s) {fd : Int} {c : TypeCache} {t n e cap : Nat} (hf : Compound t → Fits cap s t) (hfc : Faithful s c) (he : ElemBits s.cdts t e) (hn : 0 < n)
    (hN : e * n ≤ 2147483600) {data : List Byte} (hl : e * n ≤ 8 * data.length) (hreal : ∀ ks off, At s.cdts t n ks DAX_REAL 1 off → sglExp (unsignedVal (slice data (off / 8) 4)) < 190) :
    ∃ c' v, daxToLua s fd c t n data = .ok (c', v) ∧ Faithful s c' ∧ ∀ ks ty k off, At s.cdts t n ks ty k off → Comes data ty k off (indexed ks) (valAt v ks) := by
  obtain ⟨h1, h2⟩ := lua_small hn hN
  rw [daxToLua_eq]
  obtain ⟨c', v, a1, a2, a3⟩ := readValue_ok hr (fd := fd) (nm := []) (rec := readStruct s fd data (s.cdts.length + 1)) (data := data) hf he
    (fun hc => readStruct_ok hr (lua_fuel hr (hf hc)) (hf hc) (fun e' h => by rw [h.det he]; exact h1)) hn (off := 0) (byte := 0) (bit := 0) (fun _ => rfl) h2 (by omega)
    (fun ks off ha => by simpa using hreal ks off ha) hfc
  exact ⟨c', v, a1, a2, fun ks ty k off ha => by simpa using a3 ks ty k off ha⟩

theorem luaToDax_done {s : Server} (hr : Reachable s) {env : LuaEnv} {fd : Int} {c : TypeCache} {t n e cap : Nat} (hf : Compound t → Fits cap s t) (hfc : Faithful s c) (he : ElemBits s.cdts t e) (hn : 0 < n)
    (hN : e * n ≤ 2147483600) {v : Val} (hv : Shaped s.cdts t n v) {w : W} {st : List Val} (hs : w.stack = v :: st) (hl : e * n ≤ 8 * w.data.length) (hm : w.mask.length = w.data.length) :
    ∃ c' w', luaToDax env s fd c t n w = .ok (c', w', 0) ∧ Faithful s c' ∧ w'.stack = w.stack ∧ Done env (Items s.cdts t n 0 v) w w' := by
  obtain ⟨h1, h2⟩ := lua_small hn hN
  unfold luaToDax
  by_cases hc : Compound t
  · have hrec := writeStruct_ok (env := env) (fd := fd) hr (lua_fuel hr (hf hc)) (hf hc) (fun e' h => by rw [h.det he]; exact h1)
    simp only [custom_iff t hc, if_true]
    by_cases hone : 1 < n
    · obtain ⟨l, rfl, hl2⟩ := shaped_arr hv hone
      obtain ⟨c', w', a1, a2, a3, a4⟩ := writeElems_ok hr (hf hc) hc he hrec (off := 0) (byte := 0) (r := st) h2 hl2 (k := n) (n := 0) (c := c) (w := w) (by omega) hfc hs (by omega) hm (fd := fd)
      simp only [gt_iff_lt, hone, if_true]
      exact ⟨c', w', a1, a2, a3, a4.iff (itemsFrom_all he hone)⟩
    · have : n = 1 := by omega
      subst this
      obtain ⟨c', w', a1, a2, a3, a4⟩ := writeTable_ok hc he hrec (off := 0) hfc (by omega) hm hs (fun _ => hv)
      have a1 : writeTable (writeStruct env s fd (s.cdts.length + 1)) c w t 0 = .ok (c', w', 0, false) := a1
      simp only [gt_iff_lt, hone, if_false]
      rw [a1]
      exact ⟨c', w', rfl, a2, a3, a4⟩
  · simp only [custom_base he hc, Bool.false_eq_true, if_false]
    obtain ⟨w', a1, a2, a3⟩ := popBase_ok (env := env) hr hc he hn (off := 0) (bit := 0) (fun _ => rfl) hv hs (by omega) hm
    have a1 : popBase env w t n 0 0 = .ok (w', 0) := a1
    rw [a1]
    exact ⟨c, w', rfl, hfc, a2, a3⟩

/-- C68, writing: `daxlua_lua_to_dax` with a value of the right shape at the top of the stack leaves the stack as it is, gives no error, puts the values of all elements that are not nil where they belong and
sets the mask for them, and changes no other bit of data or mask.

Missing: TIME, numbers that are out of range or not integers, strings, arrays of compound type that are left out. -/
theorem C68_write_partial {s : Server} (hr : Reachable s) {env : LuaEnv} {fd : Int} {c : TypeCache} {t n e cap : Nat} (hf : Compound t → Fits cap s t) (hfc : Faithful s c) (he : ElemBits s.cdts t e)
    (hn : 0 < n) (hN : e * n ≤ 2147483600) {v : Val} (hv : Shaped s.cdts t n v) {data mask : List Byte} {st : List Val} (hl : e * n ≤ 8 * data.length) (hm : mask.length = data.length) :
    ∃ c' data' mask', luaToDax env s fd c t n ⟨data, mask, v :: st⟩ = .ok (c', ⟨data', mask', v :: st⟩, 0) ∧ Faithful s c' ∧ data'.length = data.length ∧ mask'.length = mask.length ∧
      (∀ ks ty off, At s.cdts t n ks ty 1 off → Goes env ty off (valAt v ks) data mask data' mask') ∧
      (∀ b, Changed data mask data' mask' b → ∃ ks ty off e', At s.cdts t n ks ty 1 off ∧ valAt v ks ≠ .nil ∧ Width ty e' ∧ off ≤ b ∧ b < off + e') := by
  obtain ⟨c', ⟨data', mask', st'⟩, a1, a2, a3, a4⟩ := luaToDax_done (env := env) (fd := fd) hr hf hfc he hn hN hv (w := ⟨data, mask, v :: st⟩) rfl hl hm
  have a3 : st' = v :: st := a3
  subst a3
  refine ⟨c', data', mask', a1, a2, a4.dlen, a4.mlen, fun ks ty off ha => ?_, fun b hb => ?_⟩
  · exact a4.goes off ty _ ⟨ks, off, ha, by omega, rfl⟩
  · obtain ⟨p, ty, u, e', ⟨ks, off, ha, rfl, rfl⟩, h1, h2, h3, h4⟩ := a4.frame b hb
    exact ⟨ks, ty, off, e', ha, h1, h2, by omega, by omega⟩

/-- C68, both: what is written comes back when the data is read again: the same truth, the same integer (below 2^53), the same LREAL. -/
theorem C68_round_partial {s : Server} (hr : Reachable s) {env : LuaEnv} {fd fd' : Int} {c : TypeCache} {t n e cap : Nat} (hf : Compound t → Fits cap s t) (hfc : Faithful s c) (he : ElemBits s.cdts t e)
    (hn : 0 < n) (hN : e * n ≤ 2147483600) {v : Val} (hv : Shaped s.cdts t n v) {data mask : List Byte} {st : List Val} (hl : e * n ≤ 8 * data.length) (hm : mask.length = data.length)
    (hnr : ∀ ks off, ¬ At s.cdts t n ks DAX_REAL 1 off) :
    ∃ c' c'' w v', luaToDax env s fd c t n ⟨data, mask, v :: st⟩ = .ok (c', w, 0) ∧ daxToLua s fd' c' t n w.data = .ok (c'', v') ∧
      ∀ ks ty off, At s.cdts t n ks ty 1 off → valAt v ks ≠ .nil →
        (ty = DAX_BOOL → (valAt v' ks = .bool (!decide (valAt v ks matches .bool false)))) ∧
        (∀ w sg x, (ty, w, sg) ∈ intTypes → (ty = DAX_CHAR → ¬ indexed ks) → IsNum (valAt v ks) x → x.natAbs < 2 ^ 53 → IsNum (valAt v' ks) x) ∧
        (ty = DAX_LREAL → ∃ d, IsReal (valAt v ks) d ∧ valAt v' ks = .num d) := by
  obtain ⟨c', data', mask', a1, a2, a3, a4, a5, a6⟩ := C68_write_partial (env := env) (fd := fd) (st := st) hr hf hfc he hn hN hv hl hm
  obtain ⟨c'', v', b1, b2, b3⟩ := C68_read_partial (fd := fd') hr hf a2 he hn hN (data := data') (by omega) (fun ks off ha => absurd ha (hnr ks off))
  refine ⟨c', c'', _, v', a1, b1, fun ks ty off ha hnn => ⟨fun hb => ?_, fun w sg x hi hch hx hlt => ?_, fun hd => ?_⟩⟩
  · have h1 := (a5 ks ty off ha).bool hnn hb
    have h2 := (b3 ks ty 1 off ha).bool hb rfl
    rw [h2]
    cases hv : valAt v ks with
    | bool b =>
      rw [hv] at h1
      cases b with
      | false => rw [h1.mpr rfl]; rfl
      | true =>
        cases hbit : bitAt data' off with
        | false => exact absurd (h1.mp hbit) (by simp)
        | true => rfl
    | _ =>
      rw [hv] at h1
      cases hbit : bitAt data' off with
      | false => exact absurd (h1.mp hbit) (by simp)
      | true => rfl
  · have h1 := (a5 ks ty off ha).int w sg x hi hx
    rw [← h1]
    refine (b3 ks ty 1 off ha).int w sg hi rfl hch fun hw => ?_
    obtain ⟨rfl, rfl⟩ := hw
    unfold intVal at h1
    simp only [Bool.false_eq_true, if_false] at h1
    omega
  · obtain ⟨d, h1, h2⟩ := (a5 ks ty off ha).lreal hnn hd
    refine ⟨d, h1, ?_⟩
    rw [(b3 ks ty 1 off ha).lreal hd rfl, h2]
    congr 1
    exact BitVec.ofNat_toNat ..


/-- C68, text: a string written to an array of CHAR that it fills comes back when it is read (up to its first zero), and nothing is put beside it.

Missing: shorter strings; see `C68_short_text`. -/
theorem C68_text_partial {s : Server} {env : LuaEnv} {fd fd' : Int} {c : TypeCache} {n : Nat} (hn : 1 < n) {txt data mask : List Byte} {st : List Val} (ht : n ≤ txt.length) (hl : data.length = n)
    (hm : mask.length = n) :
    luaToDax env s fd c DAX_CHAR n ⟨data, mask, .str txt :: st⟩ = .ok (c, ⟨txt.take n, List.replicate n 0xFF, .str txt :: st⟩, 0) ∧
      daxToLua s fd' c DAX_CHAR n (txt.take n) = .ok (c, .str ((txt.take n).takeWhile (· ≠ 0))) := by
  have e1 : (txt.take n).length = n := by rw [List.length_take]; omega
  have wfill : ∀ {b d : List Byte}, b.length = n → d.length = n → wr b 0 d = .ok d := by
    intro b d h1 h2
    rw [wr_ok]
    refine ⟨⟨by omega, by omega⟩, ?_⟩
    have : b.drop ((0 : Int).toNat + d.length) = [] := List.drop_eq_nil_of_le (by simp; omega)
    rw [this]
    simp
  have hc : isCustom DAX_CHAR = false := by decide
  refine ⟨?_, ?_⟩
  · unfold luaToDax
    rw [if_neg (by rw [hc]; simp)]
    have hp : popBase env ⟨data, mask, .str txt :: st⟩ DAX_CHAR n 0 0 = .ok (⟨txt.take n, List.replicate n 0xFF, .str txt :: st⟩, 0) := by
      unfold popBase
      rw [if_pos hn]
      show (do let w ← writeString ⟨data, mask, .str txt :: st⟩ n 0 txt; C.ok (w, (0 : Int))) = _
      unfold writeString
      dsimp only
      rw [wfill hl e1]
      simp only [C.ok_bind]
      rw [wfill hm (List.length_replicate ..)]
      rfl
    rw [hp]
    rfl
  · unfold daxToLua
    rw [if_neg (by rw [hc]; simp)]
    have hp : pushBase DAX_CHAR n 0 (txt.take n) 0 = .ok (.str ((txt.take n).takeWhile (· ≠ 0))) := by
      unfold pushBase
      rw [if_neg (by decide), if_pos hn, if_pos rfl]
      have hrd : rd (txt.take n) 0 (n : Int) = .ok (txt.take n) := by
        rw [rd_ok]
        refine ⟨⟨by omega, by omega, by rw [e1]; omega⟩, ?_⟩
        simp [List.take_take]
      rw [hrd]
      rfl
    rw [hp]
    rfl

/-! ## Instances -/

theorem luaDemo_reals {data : List Byte} (h : sglExp (unsignedVal (slice data 4 4)) < 190 ∧ sglExp (unsignedVal (slice data 8 4)) < 190 ∧ sglExp (unsignedVal (slice data 16 4)) < 190 ∧
    sglExp (unsignedVal (slice data 20 4)) < 190) : ∀ ks off, At (demo typeDemo).cdts 0x80000003 1 ks DAX_REAL 1 off → sglExp (unsignedVal (slice data (off / 8) 4)) < 190 := by
  have inPt : ∀ ks off, At (demo typeDemo).cdts 0x80000002 1 ks DAX_REAL 1 off → off = 32 ∨ off = 64 := by
    intro ks off ha
    cases ha with
    | elem _ _ _ _ _ _ _ _ h => omega
    | member _ d nme m r ks' _ _ o hc hd hb ha =>
      have hd : (demo typeDemo).cdts[2]? = some d := hd
      rw [typeDemo_pt] at hd
      cases hd
      cases hb with
      | here => rcases ha.base (fun h => absurd h.1 (by decide)) with ⟨_, _, h, _⟩ | ⟨_, _, h, _⟩ | ⟨_, _, _, _, _, _, h, _⟩ <;> exact absurd h (by decide)
      | later _ _ _ e _ _ _ hne he hb =>
        have := he.det typeDemo_dint
        subst this
        cases hb with
        | here =>
          rcases ha.base (fun h => absurd h.1 (by decide)) with ⟨h, _⟩ | ⟨_, _, _, h, _⟩ | ⟨i, e, _, hi, he', _, _, _, ho⟩
          · exact absurd h (by decide)
          · exact absurd h (by decide)
          · have := he'.det typeDemo_real
            subst this
            have hp : place ⟨nm "y", DAX_REAL, 2⟩ 32 = 32 := by decide
            have hi : i < 2 := hi
            show place ⟨nm "y", DAX_REAL, 2⟩ 32 + o = 32 ∨ place ⟨nm "y", DAX_REAL, 2⟩ 32 + o = 64
            rw [hp, ho]
            omega
        | later _ _ _ _ _ _ _ _ _ hb => cases hb
  intro ks off ha
  cases ha with
  | elem _ _ _ _ _ _ _ _ h => omega
  | member _ d nme m r ks' _ _ o hc hd hb ha =>
    have hd : (demo typeDemo).cdts[3]? = some d := hd
    rw [typeDemo_line] at hd
    cases hd
    cases hb with
    | here =>
      have hp : place ⟨nm "a", 0x80000002, 2⟩ 0 = 0 := by decide
      cases ha with
      | elem _ _ i e ks _ _ o _ hi he ha =>
        have := he.det typeDemo_ptElem
        subst this
        have hi : i < 2 := hi
        rw [hp]
        have hii : i = 0 ∨ i = 1 := by omega
        rcases hii with rfl | rfl <;> rcases inPt _ _ ha with rfl | rfl <;> simp <;> omega
    | later _ _ _ e _ _ _ hne he hb =>
      cases hb with
      | here => rcases ha.base (fun h => absurd h.1 (by decide)) with ⟨_, _, h, _⟩ | ⟨_, _, h, _⟩ | ⟨_, _, _, _, _, _, h, _⟩ <;> exact absurd h (by decide)
      | later _ _ _ _ _ _ _ _ _ hb => cases hb

/-- A `Line` with the REALs 2.5, 1.0, 0.0 and 3.0. -/
def luaLine : List Byte :=
  [0xFF, 0xFF, 0xFF, 0xFF, 0, 0, 0x20, 0x40, 0, 0, 0x80, 0x3F, 7, 0, 0, 0, 0, 0, 0, 0, 0, 0, 0x40, 0x40, 0b101]

theorem luaDemo_at : At (demo typeDemo).cdts 0x80000003 1 [.str (nm "a"), .int 2, .str (nm "x")] DAX_DINT 1 96 := by
  have h1 : At (demo typeDemo).cdts 0x80000002 1 [.str (nm "x")] DAX_DINT 1 0 :=
    .member 0x80000002 _ (nm "x") ⟨nm "x", DAX_DINT, 1⟩ 0 [] DAX_DINT 1 0 ⟨by decide, by decide⟩ typeDemo_pt (.here _ _ _) (.one DAX_DINT (fun h => absurd h.1 (by decide)))
  have h2 : At (demo typeDemo).cdts 0x80000002 2 [.int 2, .str (nm "x")] DAX_DINT 1 96 := .elem 0x80000002 2 1 96 _ DAX_DINT 1 0 (by decide) (by decide) typeDemo_ptElem h1
  exact .member 0x80000003 _ (nm "a") ⟨nm "a", 0x80000002, 2⟩ 0 _ DAX_DINT 1 96 ⟨by decide, by decide⟩ typeDemo_line (.here _ _ _) h2

/-- Instance of the hypotheses of `C68_read_partial`: a `Line` in which `a[1].x` is -1 and `a[2].x` is 7, and what it is in Lua. -/
example : Reachable (demo typeDemo) ∧ Fits 248 (demo typeDemo) 0x80000003 ∧ ElemBits (demo typeDemo).cdts 0x80000003 200 ∧ 200 * 1 ≤ 8 * luaLine.length ∧
    (∀ ks off, At (demo typeDemo).cdts 0x80000003 1 ks DAX_REAL 1 off → sglExp (unsignedVal (slice luaLine (off / 8) 4)) < 190) ∧
    At (demo typeDemo).cdts 0x80000003 1 [.str (nm "a"), .int 2, .str (nm "x")] DAX_DINT 1 96 ∧
    (daxToLua (demo typeDemo) 5 [] 0x80000003 1 luaLine >>= fun r => C.ok (valAt r.2 [.str (nm "a"), .int 2, .str (nm "x")], valAt r.2 [.str (nm "a"), .int 1, .str (nm "x")],
      valAt r.2 [.str (nm "f"), .int 3])) = .ok (.int 7, .int (-1), .bool true) :=
  ⟨demo_reachable (by decide +kernel), typeDemo_fits, typeDemo_lineElem, by decide, luaDemo_reals (by decide +kernel),
   luaDemo_at, by kernel_rfl⟩

/-- A Lua environment for the instances. -/
def luaEnv : LuaEnv := ⟨fun _ => none, fun _ => 0⟩

/-- `{a = {nil, {x = 7}}, f = {true, nil, false}}`. -/
def luaTable : Val := .tbl [(.str (nm "a"), .tbl [(.int 2, .tbl [(.str (nm "x"), .int 7)])]), (.str (nm "f"), .tbl [(.int 1, .bool true), (.int 3, .bool false)])]

theorem luaTable_shaped : Shaped (demo typeDemo).cdts 0x80000003 1 luaTable := by
  refine .struct _ _ _ ⟨by decide, by decide⟩ typeDemo_line (fun m hm h _ => ?_) (fun m hm _ => ?_) <;> simp only [List.mem_cons, List.not_mem_nil, or_false] at hm <;> rcases hm with rfl | rfl
  · cases h
  · cases h
  · refine .arr _ 2 _ (by decide) fun i hi hne => ?_
    have hi : i = 0 ∨ i = 1 := by omega
    rcases hi with rfl | rfl
    · exact absurd rfl hne
    · refine .struct _ _ _ ⟨by decide, by decide⟩ typeDemo_pt (fun m hm _ hc => ?_) (fun m hm hne => ?_) <;> simp only [List.mem_cons, List.not_mem_nil, or_false] at hm <;> rcases hm with rfl | rfl
      · exact absurd hc.1 (by decide)
      · exact absurd hc.1 (by decide)
      · exact .base _ _ (fun h => absurd h.1 (by decide)) (.inr (.inl ⟨4, true, 7, by decide, .inl rfl, by decide, by decide⟩))
      · exact absurd rfl hne
  · refine .arr _ 3 _ (by decide) fun i hi hne => .base _ _ (fun h => absurd h.1 (by decide)) (.inl ⟨rfl, hne⟩)

/-- Instance of the hypotheses of `C68_write_partial`, and what is written: `x` of the second point, bits 0 and 2 of `f`. -/
example : Reachable (demo typeDemo) ∧ Fits 248 (demo typeDemo) 0x80000003 ∧ ElemBits (demo typeDemo).cdts 0x80000003 200 ∧ Shaped (demo typeDemo).cdts 0x80000003 1 luaTable ∧
    (luaToDax luaEnv (demo typeDemo) 5 [] 0x80000003 1 ⟨List.replicate 25 0xAA, List.replicate 25 0, [luaTable]⟩ >>= fun r => C.ok (r.2.1.data, r.2.1.mask, r.2.1.stack.length, r.2.2)) =
      .ok (List.replicate 12 0xAA ++ [7, 0, 0, 0] ++ List.replicate 8 0xAA ++ [0xAB], List.replicate 12 0 ++ [0xFF, 0xFF, 0xFF, 0xFF] ++ List.replicate 8 0 ++ [5], 1, 0) :=
  ⟨demo_reachable (by decide +kernel), typeDemo_fits, typeDemo_lineElem, luaTable_shaped, by kernel_rfl⟩

/-- Instance of the hypotheses of `C68_round_partial`: two DINTs. -/
example : ElemBits (demo typeDemo).cdts DAX_DINT 32 ∧ Shaped (demo typeDemo).cdts DAX_DINT 2 (.tbl [(.int 2, .int (-5))]) ∧ (∀ ks off, ¬ At (demo typeDemo).cdts DAX_DINT 2 ks DAX_REAL 1 off) := by
  refine ⟨typeDemo_dint, .arr _ _ _ (by decide) fun i hi hne => ?_, fun ks off ha => ?_⟩
  · have hi : i = 0 ∨ i = 1 := by omega
    rcases hi with rfl | rfl
    · exact absurd rfl hne
    · exact .base _ _ (fun h => absurd h.1 (by decide)) (.inr (.inl ⟨4, true, -5, by decide, .inl rfl, by decide, by decide⟩))
  · rcases ha.base (fun h => absurd h.1 (by decide)) with ⟨_, _, h, _⟩ | ⟨_, _, h, _⟩ | ⟨_, _, _, _, _, _, h, _⟩ <;> exact absurd h (by decide)

/-- Instance of `C68_text_partial`. -/
example : luaToDax luaEnv (demo typeDemo) 5 [] DAX_CHAR 3 ⟨[1, 2, 3], [0, 0, 0], [.str (nm "abcd")]⟩ = .ok ([], ⟨nm "abc", [0xFF, 0xFF, 0xFF], [.str (nm "abcd")]⟩, 0) :=
  (C68_text_partial (fd' := 0) (n := 3) (txt := nm "abcd") (by decide) (by decide) rfl rfl).1

/-! ## What does not hold -/

/-- The value in Lua of one element. -/
def luaOf (type : Nat) (data : List Byte) : C Val := daxToLua (demo typeDemo) 5 [] type 1 data >>= fun r => C.ok r.2
/-- Data and mask after a value has been written to a buffer of bytes 0xAA. -/
def daxOf (type count size : Nat) (v : Val) : C (List Byte × List Byte × Nat × Int) :=
  luaToDax luaEnv (demo pathDemo) 5 [] type count ⟨List.replicate size 0xAA, List.replicate size 0, [v]⟩ >>= fun r => C.ok (r.2.1.data, r.2.1.mask, r.2.1.stack.length, r.2.2)

/-- Not C68: the REAL 1.5 (0x3FC00000) is read as 1.0 (0x3FF0000000000000) because the float is converted to an integer first. -/
theorem C68_real_lost : luaOf DAX_REAL [0, 0, 0xC0, 0x3F] = .ok (.num 0x3FF0000000000000#64) := by kernel_rfl

/-- Not C68: reading a REAL that is infinite is undefined behaviour. -/
theorem C68_real_infinite : luaOf DAX_REAL [0, 0, 0x80, 0x7F] = .ub "floating point number out of range" := by kernel_rfl

/-- Not C68: the ULINT 2^64 - 1 is read as -1.0 (0xBFF0000000000000). -/
theorem C68_ulint_negative : luaOf DAX_ULINT (List.replicate 8 0xFF) = .ok (.num 0xBFF0000000000000#64) := by kernel_rfl

/-- Not C68: the ULINT 2^53 + 1 is read as 2^53 (0x4340000000000000). -/
theorem C68_ulint_rounded : luaOf DAX_ULINT [1, 0, 0, 0, 0, 0, 0x20, 0] = .ok (.num 0x4340000000000000#64) := by kernel_rfl

/-- Not C68: the LINT 2^53 + 1 is written as 2^53, although Lua has it as an integer. -/
theorem C68_lint_rounded : daxOf DAX_LINT 1 8 (.int 9007199254740993) = .ok ([0, 0, 0, 0, 0, 0, 0x20, 0], List.replicate 8 0xFF, 1, 0) := by kernel_rfl

/-- Not C68: of a TIME only four bytes are written, and the mask is set only for them. -/
theorem C68_time_half : daxOf DAX_TIME 1 8 (.int 5) = .ok ([5, 0, 0, 0, 0xAA, 0xAA, 0xAA, 0xAA], [0xFF, 0xFF, 0xFF, 0xFF, 0, 0, 0, 0], 1, 0) := by kernel_rfl

/-- Not C68: elements of an array of TIME are written four bytes apart, so that the second one goes into the first. -/
theorem C68_time_array : daxOf DAX_TIME 2 16 (.tbl [(.int 1, .int 1), (.int 2, .int 2)]) =
    .ok ([1, 0, 0, 0, 2, 0, 0, 0, 0xAA, 0xAA, 0xAA, 0xAA, 0xAA, 0xAA, 0xAA, 0xAA], List.replicate 8 0xFF ++ List.replicate 8 0, 1, 0) := by kernel_rfl

/-- Not C68: writing 70000 to an INT is undefined behaviour. -/
theorem C68_int_range : daxOf DAX_INT 1 2 (.int 70000) = .ub "floating point number out of range" := by kernel_rfl

/-- Not C68: after a string that is shorter than the array the mask is set for bytes that have not been written: they are what `malloc` left. -/
theorem C68_short_text : daxOf DAX_CHAR 4 4 (.str (nm "ab")) = .ok ([97, 98, 0xAA, 0xAA], List.replicate 4 0xFF, 1, 0) := by kernel_rfl

/-- Not C68: a string for an array of 16 BOOLs sets 16 bytes of the mask, but there are two. -/
theorem C68_text_bool : daxOf DAX_BOOL 16 2 (.str (nm "ab")) = .ub "write outside block" := by kernel_rfl

/-- Not C68: a character is not taken for a CHAR (the result is 0). -/
theorem C68_char_text : daxOf DAX_CHAR 1 1 (.str (nm "A")) = .ok ([0], [0xFF], 1, 0) := by kernel_rfl

/-- Not C68: nil for a tag of base type writes 0, although nil for an element or a member writes nothing. -/
theorem C68_nil_zero : daxOf DAX_DINT 1 4 .nil = .ok ([0, 0, 0, 0], List.replicate 4 0xFF, 1, 0) := by kernel_rfl

/-- Not C68: an array of compound type that is left out is an error, the message stays on the stack, and the next member is looked up in it, which is undefined behaviour. -/
theorem C68_array_left_out : daxOf 0x80000005 1 60 (.tbl [(.str (nm "z"), .tbl [(.int 1, .int 5)])]) = .ub "rawget on a value that is no table" := by kernel_rfl

end Dax
