import Verif.Lemmas.LibPath
import Verif.Props.LibData
/-!
# Tag paths and member iteration in the client library (C21, C22, C23)
-/
set_option autoImplicit false
namespace Dax
open Dax.LibPath

/-- **C21**, members: a path that leads to a member (`Place`), however deep and with whatever indices, gives a handle at exactly the
byte and bit of that member, `off` bits behind the element of the tag that is meant, for the number of items asked for; or it is refused because there are not that many.

Missing: paths in which BOOLs put a nested type or a bit number out of place (`Clear`; `C21_nested_bools`,
`C21_bit_after_bools`), members with more than 248 BOOLs (`C21_many_bools`), types that are larger than 2³¹ bits or that the client cannot fetch; and the number
of items must fit behind every index in the path (`Room`; `C21_count_refused`). -/
theorem C21_member_partial {s : Server} (hr : Reachable s) {fd : Int} {byname : Name → Option TagFound} {c : TypeCache} {g : Seg} {gs : List Seg}
    {b : Option Nat} {tag : TagFound} {e ty n off cnt : Nat} (hf : Fits 248 s tag.type) (hfc : Faithful s c) (ht : byname g.name = some tag)
    (hpn : ∀ x ∈ g :: gs, PlainName x.name) (hp : Place s.cdts tag.type gs b ty n off) (hcl : Clear s.cdts false tag.type gs b)
    (he : ElemBits s.cdts tag.type e) (hone : g.index = none → tag.count ≤ 1) (hcnt : cnt < 1073741824) (hsm : e * (g.index.getD 0 + 1) ≤ 2147483600) :
    ∃ c' h r, tagHandle s fd byname c (segText g ++ pathText gs b) cnt = .ok (c', h, r) ∧ Faithful s c' ∧
      (r = 0 ∧ (wanted (lastIdx gs b) cnt n ≤ n ∧ Room s.cdts (if cnt = 0 then 1 else cnt) tag.type gs) ∧
          Points s.cdts h tag.idx ty (wanted (lastIdx gs b) cnt n) (e * g.index.getD 0 + off) ∨
        r = ERR_2BIG ∧ ¬ (wanted (lastIdx gs b) cnt n ≤ n ∧ Room s.cdts (if cnt = 0 then 1 else cnt) tag.type gs)) := by
  obtain ⟨c', h, r, h1, h2, h3⟩ := handle_ok hr hf hfc ht hpn hp hcl he hone hcnt hsm (fd := fd)
  refine ⟨c', h, r, h1, h2, ?_⟩
  rcases h3 with ⟨a1, a2, a3⟩ | ⟨a1, -, a2⟩
  · exact .inl ⟨a1, a2, a3.points⟩
  · exact .inr ⟨a1, a2⟩

/-- **C21**, tags: the name of a tag, with or without an index, gives a handle at the element with that index, if there are as many elements
from there on as are asked for, and is refused if not. -/
theorem C21_tag {s : Server} (hr : Reachable s) {fd : Int} {byname : Name → Option TagFound} {c : TypeCache} {g : Seg} {tag : TagFound} {e cnt cap : Nat}
    (hf : Compound tag.type → Fits cap s tag.type) (hfc : Faithful s c) (ht : byname g.name = some tag) (hpn : PlainName g.name)
    (he : ElemBits s.cdts tag.type e) (h0 : 0 < tag.count) (hcnt : cnt < 1073741824) (hi : g.index.getD 0 < 1073741824) (hsm : e * tag.count ≤ 2147483600) :
    ∃ c' h r, tagHandle s fd byname c (segText g) cnt = .ok (c', h, r) ∧ Faithful s c' ∧
      (r = 0 ∧ g.index.getD 0 + wanted g.index.isSome cnt tag.count ≤ tag.count ∧
          Points s.cdts h tag.idx tag.type (wanted g.index.isSome cnt tag.count) (e * g.index.getD 0) ∨
        r = ERR_2BIG ∧ ¬ g.index.getD 0 + wanted g.index.isSome cnt tag.count ≤ tag.count) := by
  obtain ⟨c', h, r, h1, h2, h3⟩ := tag_ok hr hf hfc ht hpn he h0 hcnt hi hsm (fd := fd)
  refine ⟨c', h, r, h1, h2, ?_⟩
  rcases h3 with ⟨a1, -, a2, a3⟩ | ⟨a1, -, a2⟩
  · exact .inl ⟨a1, a2, a3.points⟩
  · exact .inr ⟨a1, a2⟩

/-- **C21**, bits: a bit number behind an integer tag gives a handle at that bit, if there are as many bits from there on in the integer as
are asked for, and is refused if not. -/
theorem C21_bit {s : Server} {fd : Int} {byname : Name → Option TagFound} {c : TypeCache} {g : Seg} {tag : TagFound} {w b cnt : Nat} {sg : Bool}
    (hfc : Faithful s c) (ht : byname g.name = some tag) (hpn : PlainName g.name) (hit : (tag.type, w, sg) ∈ intTypes) (hb : b < 8 * w)
    (hone : g.index = none → tag.count ≤ 1) (hcnt : cnt < 1073741824) (hsm : 8 * w * g.index.getD 0 ≤ 2147483600) :
    ∃ c' h r, tagHandle s fd byname c (segText g ++ pathText [] (some b)) cnt = .ok (c', h, r) ∧ Faithful s c' ∧
      (r = 0 ∧ wanted true cnt (8 * w - b) ≤ 8 * w - b ∧ Points s.cdts h tag.idx DAX_BOOL (wanted true cnt (8 * w - b)) (8 * w * g.index.getD 0 + b) ∨
        r = ERR_2BIG ∧ ¬ wanted true cnt (8 * w - b) ≤ 8 * w - b) := by
  obtain ⟨c', h, r, h1, h2, h3⟩ := tag_bit_ok hfc ht hpn hit hb hone hcnt hsm (fd := fd)
  refine ⟨c', h, r, h1, h2, ?_⟩
  rcases h3 with ⟨a1, a2, a3⟩ | ⟨a1, -, a2⟩
  · exact .inl ⟨a1, a2, a3.points⟩
  · exact .inr ⟨a1, a2⟩

/-- **C22**, tags: when the name of a tag, with or without an index, is resolved for some number of elements, the bytes of the handle are inside the tag, and there is a handle exactly
if that many elements are there. -/
theorem C22_tag {s : Server} (hr : Reachable s) {fd : Int} {byname : Name → Option TagFound} {c : TypeCache} {g : Seg} {tag : TagFound} {e cnt cap : Nat}
    (hf : Compound tag.type → Fits cap s tag.type) (hfc : Faithful s c) (ht : byname g.name = some tag) (hpn : PlainName g.name)
    (he : ElemBits s.cdts tag.type e) (h0 : 0 < tag.count) (hcnt : cnt < 1073741824) (hi : g.index.getD 0 < 1073741824) (hsm : e * tag.count ≤ 2147483600)
    {c' : TypeCache} {h : Handle} {r : Int} (hh : tagHandle s fd byname c (segText g) cnt = .ok (c', h, r)) :
    (r = 0 → h.byte + h.size ≤ (e * tag.count + 7) / 8 ∧ h.bit < 8) ∧ (r = 0 ∨ r = ERR_2BIG) ∧
      (r = 0 ↔ g.index.getD 0 + wanted g.index.isSome cnt tag.count ≤ tag.count) := by
  obtain ⟨c1, h1, r1, k1, -, k3⟩ := tag_ok hr hf hfc ht hpn he h0 hcnt hi hsm (fd := fd)
  rw [hh] at k1
  obtain ⟨rfl, rfl, rfl⟩ : c' = c1 ∧ h = h1 ∧ r = r1 := by simpa using k1
  rcases k3 with ⟨a1, a0, a2, a3⟩ | ⟨a1, -, a2⟩
  · refine ⟨fun _ => ⟨a3.bytes (wanted_pos h0) he ?_, a0⟩, .inl a1, fun _ => a2, fun _ => a1⟩
    rw [← Nat.mul_add]
    have := Nat.mul_le_mul_left e a2
    omega
  · have : ERR_2BIG ≠ 0 := by decide
    exact ⟨fun h => absurd (a1 ▸ h) this, .inr a1, fun h => absurd (a1 ▸ h) this, fun h => absurd h a2⟩

/-- **C22**, members: when a path to a member is resolved, at an index that exists, the bytes of the handle are inside the tag; more items than are there from
the place on are refused.

Missing: as for `C21_member_partial`, and an index of the tag that does not exist is accepted if a member or a bit number follows (`C22_index`, `C22_bit_index`), and so is
a negative count for a member (`C22_negative`). -/
theorem C22_member_partial {s : Server} (hr : Reachable s) {fd : Int} {byname : Name → Option TagFound} {c : TypeCache} {g : Seg} {gs : List Seg}
    {b : Option Nat} {tag : TagFound} {e ty n off cnt : Nat} (hf : Fits 248 s tag.type) (hfc : Faithful s c) (ht : byname g.name = some tag)
    (hpn : ∀ x ∈ g :: gs, PlainName x.name) (hp : Place s.cdts tag.type gs b ty n off) (hcl : Clear s.cdts false tag.type gs b)
    (he : ElemBits s.cdts tag.type e) (hone : g.index = none → tag.count ≤ 1) (hcnt : cnt < 1073741824) (hsm : e * tag.count ≤ 2147483600)
    (hi : g.index.getD 0 < tag.count)
    {c' : TypeCache} {h : Handle} {r : Int} (hh : tagHandle s fd byname c (segText g ++ pathText gs b) cnt = .ok (c', h, r)) :
    (r = 0 → h.byte + h.size ≤ e * tag.count / 8) ∧ (r = 0 ∨ r = ERR_2BIG) ∧ (n < wanted (lastIdx gs b) cnt n → r = ERR_2BIG) := by
  have hei := Nat.mul_le_mul_left e (show g.index.getD 0 + 1 ≤ tag.count by omega)
  obtain ⟨c1, h1, r1, k1, -, k3⟩ := handle_ok hr hf hfc ht hpn hp hcl he hone hcnt (by omega) (fd := fd)
  rw [hh] at k1
  obtain ⟨rfl, rfl, rfl⟩ : c' = c1 ∧ h = h1 ∧ r = r1 := by simpa using k1
  obtain ⟨d, q, K⟩ := hf.known hr.wf
  have h6 := he.det K.elem
  obtain ⟨ex, w1, w2, w3⟩ := hp.within hr K
  rw [Nat.mul_add] at hei
  rcases k3 with ⟨a1, a2, a3⟩ | ⟨a1, -, a2⟩
  · refine ⟨fun _ => a3.bytes (wanted_pos w2) w1 ?_, .inl a1, fun h => by omega⟩
    have hm : ex * wanted (lastIdx gs b) cnt n ≤ ex * n := Nat.mul_le_mul_left _ a2.1
    have h8 : 8 * (e * tag.count / 8) = e * tag.count := by
      rw [h6, Nat.mul_assoc]; omega
    omega
  · have : ERR_2BIG ≠ 0 := by decide
    exact ⟨fun h => absurd (a1 ▸ h) this, .inr a1, fun _ => a1⟩

/-- **C22**, bits of integer tags: the bytes of the handle are inside the tag, for an index that exists.

Missing: other indices, which are accepted (`C22_bit_index`), and bit numbers from 256 on, of which only the low byte is used
(`C22_bit_wraps`). -/
theorem C22_bit_partial {s : Server} {fd : Int} {byname : Name → Option TagFound} {c : TypeCache} {g : Seg} {tag : TagFound} {w b cnt : Nat} {sg : Bool}
    (hfc : Faithful s c) (ht : byname g.name = some tag) (hpn : PlainName g.name) (hit : (tag.type, w, sg) ∈ intTypes) (hb : b < 8 * w)
    (hone : g.index = none → tag.count ≤ 1) (hcnt : cnt < 1073741824) (hsm : 8 * w * tag.count ≤ 2147483600) (hi : g.index.getD 0 < tag.count)
    {c' : TypeCache} {h : Handle} {r : Int} (hh : tagHandle s fd byname c (segText g ++ pathText [] (some b)) cnt = .ok (c', h, r)) :
    (r = 0 → h.byte + h.size ≤ w * tag.count) ∧ (r = 0 ∨ r = ERR_2BIG) ∧ (r = 0 ↔ wanted true cnt (8 * w - b) ≤ 8 * w - b) := by
  have hei := Nat.mul_le_mul_left (8 * w) (show g.index.getD 0 + 1 ≤ tag.count by omega)
  rw [Nat.mul_add] at hei
  obtain ⟨c1, h1, r1, k1, -, k3⟩ := tag_bit_ok hfc ht hpn hit hb hone hcnt (by omega) (fd := fd)
  rw [hh] at k1
  obtain ⟨rfl, rfl, rfl⟩ : c' = c1 ∧ h = h1 ∧ r = r1 := by simpa using k1
  rcases k3 with ⟨a1, a2, a3⟩ | ⟨a1, -, a2⟩
  · refine ⟨fun _ => a3.bytes (wanted_pos (by omega)) (.inl ⟨rfl, rfl⟩) ?_, .inl a1, fun _ => a2, fun _ => a1⟩
    have h8 : 8 * (w * tag.count) = 8 * w * tag.count := (Nat.mul_assoc _ _ _).symm
    omega
  · have : ERR_2BIG ≠ 0 := by decide
    exact ⟨fun h => absurd (a1 ▸ h) this, .inr a1, fun h => absurd (a1 ▸ h) this, fun h => absurd h a2⟩

/-- **C23**: the iteration over the members of a compound type reports each member once, in order, with its name, type and count, at the byte and bit where
it is.

Missing: types that are larger than 2³¹ bits or that the client cannot fetch (`Fits`, for any number of BOOLs).  Paths lead to other places than the iteration
where `C21` fails (`C21_many_bools`). -/
theorem C23_partial {s : Server} (hr : Reachable s) {fd : Int} {c : TypeCache} {t cap : Nat} (hf : Fits cap s t) (hc : Faithful s c)
    {d : Cdt} (hd : s.cdts[t - 2147483648]? = some d) {q : Nat} (hE : Ends s.cdts d.members 0 q) (hq : q ≤ 2147483600) :
    ∃ c' l, cdtIter s fd c t = .ok (c', 0, l) ∧ Faithful s c' ∧ Listed s.cdts d.members 0 l := by
  obtain ⟨d', q', K⟩ := hf.known hr.wf
  have := K.det hd; subst this
  obtain ⟨c1, h1, h2⟩ := cdtMembers_known hr K hc (fd := fd)
  obtain ⟨c2, l, h3, h4, h5⟩ := iter_ok hr hE hq K.sub h2 (byte := 0) (bit := 0) (fd := fd) (by omega) (fun m _ => by rw [place_of8 m rfl])
  refine ⟨c2, l, ?_, h4, h5⟩
  unfold cdtIter
  rw [h1]
  simp only [C.ok_bind]
  have h3 : iterLoop s fd d.members c1 0 0 = .ok (c2, l) := h3
  rw [h3]
  rfl

/-- **C23**, agreement with the server's layout: the reported positions are a placement of the members, in order and without overlap, that ends
inside the size the server has for the type. -/
theorem C23_server {s : Server} (hr : Reachable s) {t cap : Nat} (hf : Fits cap s t) {d : Cdt} (hd : s.cdts[t - 2147483648]? = some d)
    {l : List Iter} (hl : Listed s.cdts d.members 0 l) {ps : List Piece} (hps : Pieces s.cdts d.members ps) :
    ∃ n : Nat, typeSize s.cdts t = .ok (n : Int) ∧ Places 0 ps (l.map Iter.pos) (8 * n) ∧
      l.map (fun i => (i.name, i.type, i.count)) = d.members.map (fun m => (m.name, m.type, m.count)) := by
  obtain ⟨d', q', K⟩ := hf.known hr.wf
  have := K.det hd; subst this
  refine ⟨_, K.size, ?_, hl.members⟩
  exact places_mono (hl.places K.ends hps) (by omega)

/-- **C23**, agreement with paths: the path that consists of the name of a member leads to the position reported for that member. -/
theorem C23_path {s : Server} {t : Nat} {d : Cdt} (hd : s.cdts[t - 2147483648]? = some d) {l : List Iter} (hl : Listed s.cdts d.members 0 l)
    {n : Name} {ty k off : Nat} (hp : Place s.cdts t [⟨n, none⟩] none ty k off) :
    ∃ byte bit : Nat, (⟨n, ty, k, byte, bit⟩ : Iter) ∈ l ∧ bit < 8 ∧ 8 * byte + bit = off := by
  cases hp with
  | last _ d' _ m r e hc hd' hb he hi =>
    rw [hd] at hd'; obtain rfl := Option.some.inj hd'
    obtain ⟨y, i, h1, h2, h3⟩ := hl.before hb
    exact ⟨y, i, h1, h2, h3⟩
  | step _ _ _ _ _ _ _ _ _ _ _ _ _ _ _ _ _ hp => exact absurd rfl hp.ne


/-! ## Instances -/

/-- A client that knows three tags. -/
def pathTags (n : Name) : Option TagFound :=
  if n = nm "L" then some ⟨16, 0x80000003, 2⟩ else if n = nm "Speed" then some ⟨13, DAX_INT, 4⟩
  else if n = nm "Flags" then some ⟨14, DAX_BOOL, 20⟩ else none

theorem typeDemo_pt : (demo typeDemo).cdts[2]? = some { name := nm "Pt", members := [⟨nm "x", DAX_DINT, 1⟩, ⟨nm "y", DAX_REAL, 2⟩] } := by kernel_rfl

theorem typeDemo_line : (demo typeDemo).cdts[3]? = some { name := nm "Line", members := [⟨nm "a", 0x80000002, 2⟩, ⟨nm "f", DAX_BOOL, 3⟩] } := by kernel_rfl

theorem typeDemo_ptElem : ElemBits (demo typeDemo).cdts 0x80000002 96 := .inr (.inr ⟨⟨by decide, by decide⟩, 12, by kernel_rfl, rfl⟩)

theorem typeDemo_lineElem : ElemBits (demo typeDemo).cdts 0x80000003 200 := .inr (.inr ⟨⟨by decide, by decide⟩, 25, by kernel_rfl, rfl⟩)

theorem typeDemo_dint : ElemBits (demo typeDemo).cdts DAX_DINT 32 := .inr (.inl ⟨4, by decide, rfl⟩)
theorem typeDemo_real : ElemBits (demo typeDemo).cdts DAX_REAL 32 := .inr (.inl ⟨4, by decide, rfl⟩)
theorem typeDemo_bool : ElemBits (demo typeDemo).cdts DAX_BOOL 1 := .inl ⟨rfl, rfl⟩

theorem typeDemo_ptFetchable : Fetchable (demo typeDemo) 0x80000002 := by
  refine .mk _ (nm "Pt") [(nm "x", nm "DINT", 1), (nm "y", nm "REAL", 2)] (fun _ => 0)
      ⟨⟨by decide, by decide⟩, fun fd => by kernel_rfl⟩ (by decide) (by decide) (by decide) ?_ ?_ <;>
    · intro f hf hb
      exfalso; revert f; decide

theorem typeDemo_lineEnds : Ends (demo typeDemo).cdts [⟨nm "a", 0x80000002, 2⟩, ⟨nm "f", DAX_BOOL, 3⟩] 0 195 :=
  .cons _ _ 0 96 195 typeDemo_ptElem (.cons _ _ 192 1 195 typeDemo_bool (.nil 195))

theorem typeDemo_fits : Fits 248 (demo typeDemo) 0x80000003 := by
  refine .mk _ _ 195 typeDemo_fetchable typeDemo_line typeDemo_lineEnds (by omega) (by omega) (by decide) (fun m hm hc => ?_)
  simp only [List.mem_cons, List.not_mem_nil, or_false] at hm
  rcases hm with rfl | rfl
  · refine .mk _ _ 96 typeDemo_ptFetchable typeDemo_pt (.cons _ _ 0 32 96 typeDemo_dint (.cons _ _ 32 32 96 typeDemo_real (.nil 96)))
      (by omega) (by omega) (by decide) (fun m hm hc => ?_)
    simp only [List.mem_cons, List.not_mem_nil, or_false] at hm
    rcases hm with rfl | rfl
    · exact absurd hc.1 (by decide)
    · exact absurd hc.1 (by decide)
  · exact absurd hc.1 (by decide)

/-- `a[1].y[1]` in a `Line`. -/
theorem typeDemo_place : Place (demo typeDemo).cdts 0x80000003 [⟨nm "a", some 1⟩, ⟨nm "y", some 1⟩] none DAX_REAL 1 160 :=
  .step _ _ ⟨nm "a", some 1⟩ [⟨nm "y", some 1⟩] none ⟨nm "a", 0x80000002, 2⟩ 0 96 _ 1 64 ⟨by decide, by decide⟩ typeDemo_line (.here _ _ _) ⟨by decide, by decide⟩ typeDemo_ptElem
    (by decide) (.last _ _ ⟨nm "y", some 1⟩ ⟨nm "y", DAX_REAL, 2⟩ 32 32 ⟨by decide, by decide⟩ typeDemo_pt
      (.later _ _ _ 32 _ _ _ (by decide) typeDemo_dint (.here _ _ _)) typeDemo_real (by decide))

theorem plain_demo {n : Name} (h : 46#8 ∉ n ∧ 91#8 ∉ n ∧ n.head?.all (fun x => !decide (48 ≤ x.toNat ∧ x.toNat ≤ 57)) = true) : PlainName n := by
  refine ⟨h.1, h.2.1, fun x hx => ?_⟩
  have := h.2.2
  rw [hx] at this
  simp only [Option.all_some, Bool.not_eq_true', decide_eq_false_iff_not] at this
  exact this

/-- Instance: `L[1].a[1].y[1]`. -/
example : Reachable (demo typeDemo) ∧ Fits 248 (demo typeDemo) 0x80000003 ∧ Faithful (demo typeDemo) [] ∧ pathTags (nm "L") = some ⟨16, 0x80000003, 2⟩ ∧
    (∀ x ∈ [(⟨nm "L", some 1⟩ : Seg), ⟨nm "a", some 1⟩, ⟨nm "y", some 1⟩], PlainName x.name) ∧
    Place (demo typeDemo).cdts 0x80000003 [⟨nm "a", some 1⟩, ⟨nm "y", some 1⟩] none DAX_REAL 1 160 ∧
    Clear (demo typeDemo).cdts false 0x80000003 [⟨nm "a", some 1⟩, ⟨nm "y", some 1⟩] none ∧
    ElemBits (demo typeDemo).cdts 0x80000003 200 ∧
    segText ⟨nm "L", some 1⟩ ++ pathText [⟨nm "a", some 1⟩, ⟨nm "y", some 1⟩] none = nm "L[1].a[1].y[1]" ∧
    Room (demo typeDemo).cdts 1 0x80000003 [⟨nm "a", some 1⟩, ⟨nm "y", some 1⟩] := by
  refine ⟨demo_reachable (by decide +kernel), typeDemo_fits, faithful_nil _, by decide, ?_, typeDemo_place, ?_, typeDemo_lineElem, by decide, ?_⟩
  · intro x hx
    simp only [List.mem_cons, List.not_mem_nil, or_false] at hx
    rcases hx with rfl | rfl | rfl <;> exact plain_demo (by decide)
  · exact .step _ _ _ _ _ _ ⟨nm "a", 0x80000002, 2⟩ 0 typeDemo_line (by simp) (.here _ _ _) (.last _ _ _ _ typeDemo_pt (by simp))
  · exact .step _ _ _ _ ⟨nm "a", 0x80000002, 2⟩ 0 typeDemo_line (.here _ _ _) (by intro i hi; cases hi; decide) (.last _ _)

/-- Instance: all of `Flags`; bit 3 of `Speed[2]`. -/
example : pathTags (nm "Flags") = some ⟨14, DAX_BOOL, 20⟩ ∧ PlainName (nm "Flags") ∧ ElemBits (demo typeDemo).cdts DAX_BOOL 1 ∧
    pathTags (nm "Speed") = some ⟨13, DAX_INT, 4⟩ ∧ (DAX_INT, 2, true) ∈ intTypes ∧ segText ⟨nm "Speed", some 2⟩ ++ pathText [] (some 3) = nm "Speed[2].3" :=
  ⟨by decide, plain_demo (by decide), typeDemo_bool, by decide, by decide, by decide⟩

/-- Instance: iteration over a `Line`. -/
example : ∃ c l, cdtIter (demo typeDemo) 5 [] 0x80000003 = .ok (c, 0, l) ∧
    l = [⟨nm "a", 0x80000002, 2, 0, 0⟩, ⟨nm "f", DAX_BOOL, 3, 24, 0⟩] ∧
    Pieces (demo typeDemo).cdts [⟨nm "a", 0x80000002, 2⟩, ⟨nm "f", DAX_BOOL, 3⟩] [⟨192, true⟩, ⟨3, false⟩] := by
  have h : (cdtIter (demo typeDemo) 5 [] 0x80000003 >>= fun p => C.ok p.2) = .ok (0, [⟨nm "a", 0x80000002, 2, 0, 0⟩, ⟨nm "f", DAX_BOOL, 3, 24, 0⟩]) := by kernel_rfl
  obtain ⟨⟨c, r⟩, h1, h2⟩ := C.bind_eq_ok.mp h
  simp only [C.ok.injEq] at h2
  subst h2
  refine ⟨c, _, h1, rfl, .cons (.inr (.inr ⟨⟨by decide, by decide⟩, 12, by kernel_rfl, rfl⟩)) (.cons (.inl ⟨rfl, rfl⟩) .nil)⟩

/-! ## Where paths go wrong -/

/-- Two types with BOOLs before other members. -/
def pathDemo : List Op := typeDemo ++ [.req 5 (.cdtCreate (nm "In:b,BOOL,2:w,WORD,1")), .req 5 (.cdtCreate (nm "Out:f,BOOL,3:n,In,2:g,BOOL,300:z,WORD,2")),
  .req 5 (.cdtCreate (nm "Bits:f,BOOL,3:g,BOOL,8:w,WORD,1"))]

def pathDemoTags (n : Name) : Option TagFound :=
  if n = nm "O" then some ⟨17, 0x80000005, 1⟩ else if n = nm "B" then some ⟨18, 0x80000006, 1⟩ else pathTags n

theorem pathDemo_reachable : Reachable (demo pathDemo) := demo_reachable (by decide +kernel)

theorem pathDemo_in : (demo pathDemo).cdts[4]? = some { name := nm "In", members := [⟨nm "b", DAX_BOOL, 2⟩, ⟨nm "w", DAX_WORD, 1⟩] } := by kernel_rfl

theorem pathDemo_out : (demo pathDemo).cdts[5]? = some { name := nm "Out", members := [⟨nm "f", DAX_BOOL, 3⟩, ⟨nm "n", 0x80000004, 2⟩, ⟨nm "g", DAX_BOOL, 300⟩,
    ⟨nm "z", DAX_WORD, 2⟩] } := by kernel_rfl

theorem pathDemo_bits : (demo pathDemo).cdts[6]? = some { name := nm "Bits", members := [⟨nm "f", DAX_BOOL, 3⟩, ⟨nm "g", DAX_BOOL, 8⟩, ⟨nm "w", DAX_WORD, 1⟩] } := by kernel_rfl

theorem pathDemo_inElem : ElemBits (demo pathDemo).cdts 0x80000004 24 := .inr (.inr ⟨⟨by decide, by decide⟩, 3, by kernel_rfl, rfl⟩)
theorem pathDemo_word : ElemBits (demo pathDemo).cdts DAX_WORD 16 := .inr (.inl ⟨2, by decide, rfl⟩)
theorem pathDemo_bool : ElemBits (demo pathDemo).cdts DAX_BOOL 1 := .inl ⟨rfl, rfl⟩

/-- The handle a path gives, and the result. -/
def pathOf (p : String) (count : Int) : C (Handle × Int) := tagHandle (demo pathDemo) 5 pathDemoTags [] (nm p) count >>= fun x => C.ok x.2

/-- **C21** fails: behind more than 248 BOOLs the position is wrong by 32 bytes, because the number of bits is kept in one byte.  The
iteration over the members has the right place (**C23** fails as well: the two disagree). -/
theorem C21_many_bools : Place (demo pathDemo).cdts 0x80000005 [⟨nm "z", none⟩] none DAX_WORD 2 (8 * 45) ∧
    pathOf "O.z" 0 = .ok (⟨17, 13, 0, 2, 4, DAX_WORD⟩, 0) ∧
    ∃ c l, cdtIter (demo pathDemo) 5 [] 0x80000005 = .ok (c, 0, l) ∧ ⟨nm "z", DAX_WORD, 2, 45, 0⟩ ∈ l := by
  refine ⟨?_, by kernel_rfl, ?_⟩
  · exact .last _ _ ⟨nm "z", none⟩ ⟨nm "z", DAX_WORD, 2⟩ 356 16 ⟨by decide, by decide⟩ pathDemo_out
      (.later _ _ _ 1 _ _ _ (by decide) pathDemo_bool (.later _ _ _ 24 _ _ _ (by decide) pathDemo_inElem
        (.later _ _ _ 1 _ _ _ (by decide) pathDemo_bool (.here ⟨nm "z", DAX_WORD, 2⟩ _ _)))) pathDemo_word (by decide)
  · have h : (cdtIter (demo pathDemo) 5 [] 0x80000005 >>= fun p => C.ok p.2) = .ok (0, [⟨nm "f", DAX_BOOL, 3, 0, 0⟩, ⟨nm "n", 0x80000004, 2, 1, 0⟩,
        ⟨nm "g", DAX_BOOL, 300, 7, 0⟩, ⟨nm "z", DAX_WORD, 2, 45, 0⟩]) := by kernel_rfl
    obtain ⟨⟨c, r⟩, h1, h2⟩ := C.bind_eq_ok.mp h
    simp only [C.ok.injEq] at h2
    subst h2
    exact ⟨c, _, h1, by simp⟩

/-- **C21** fails: a compound member behind BOOLs begins at the next byte, but the path to a BOOL at its beginning, and everything behind that, is not
moved there. -/
theorem C21_nested_bools : Place (demo pathDemo).cdts 0x80000005 [⟨nm "n", none⟩, ⟨nm "b", none⟩] none DAX_BOOL 2 8 ∧
    pathOf "O.n.b" 0 = .ok (⟨17, 0, 3, 2, 1, DAX_BOOL⟩, 0) ∧
    Place (demo pathDemo).cdts 0x80000005 [⟨nm "n", none⟩, ⟨nm "w", none⟩] none DAX_WORD 1 16 ∧
    pathOf "O.n.w" 0 = .ok (⟨17, 1, 0, 1, 2, DAX_WORD⟩, 0) := by
  have hb : Before (demo pathDemo).cdts [⟨nm "f", DAX_BOOL, 3⟩, ⟨nm "n", 0x80000004, 2⟩, ⟨nm "g", DAX_BOOL, 300⟩, ⟨nm "z", DAX_WORD, 2⟩] 0 (nm "n") ⟨nm "n", 0x80000004, 2⟩ 3 :=
    .later _ _ _ 1 _ _ _ (by decide) pathDemo_bool (.here ⟨nm "n", 0x80000004, 2⟩ _ _)
  refine ⟨?_, by kernel_rfl, ?_, by kernel_rfl⟩
  · exact .step 0x80000005 _ ⟨nm "n", none⟩ [⟨nm "b", none⟩] none ⟨nm "n", 0x80000004, 2⟩ 3 24 DAX_BOOL 2 0 ⟨by decide, by decide⟩ pathDemo_out hb ⟨by decide, by decide⟩ pathDemo_inElem (by decide)
      (.last 0x80000004 _ ⟨nm "b", none⟩ ⟨nm "b", DAX_BOOL, 2⟩ 0 1 ⟨by decide, by decide⟩ pathDemo_in (.here ⟨nm "b", DAX_BOOL, 2⟩ _ _) pathDemo_bool (by decide))
  · exact .step 0x80000005 _ ⟨nm "n", none⟩ [⟨nm "w", none⟩] none ⟨nm "n", 0x80000004, 2⟩ 3 24 DAX_WORD 1 8 ⟨by decide, by decide⟩ pathDemo_out hb ⟨by decide, by decide⟩ pathDemo_inElem (by decide)
      (.last 0x80000004 _ ⟨nm "w", none⟩ ⟨nm "w", DAX_WORD, 1⟩ 2 16 ⟨by decide, by decide⟩ pathDemo_in
        (.later _ _ _ 1 _ _ _ (by decide) pathDemo_bool (.here ⟨nm "w", DAX_WORD, 1⟩ _ _)) pathDemo_word (by decide))

theorem pathDemo_bitsW : Before (demo pathDemo).cdts [⟨nm "f", DAX_BOOL, 3⟩, ⟨nm "g", DAX_BOOL, 8⟩, ⟨nm "w", DAX_WORD, 1⟩] 0 (nm "w") ⟨nm "w", DAX_WORD, 1⟩ 11 :=
  .later _ _ _ 1 _ _ _ (by decide) pathDemo_bool (.later _ _ _ 1 _ _ _ (by decide) pathDemo_bool (.here ⟨nm "w", DAX_WORD, 1⟩ _ _))

/-- **C21** fails: a bit of an integer behind BOOLs is looked for in the byte of the last BOOL. -/
theorem C21_bit_after_bools : Place (demo pathDemo).cdts 0x80000006 [⟨nm "w", none⟩] (some 2) DAX_BOOL 14 18 ∧
    pathOf "B.w.2" 0 = .ok (⟨18, 1, 2, 1, 1, DAX_BOOL⟩, 0) := by
  refine ⟨?_, by kernel_rfl⟩
  exact .bit _ _ ⟨nm "w", none⟩ ⟨nm "w", DAX_WORD, 1⟩ 11 2 2 false ⟨by decide, by decide⟩ pathDemo_bits pathDemo_bitsW (by decide) (by decide) (by decide) (by decide)

/-- **C21** fails: two items of the inner array are refused if the outer index is the last, though they are there. -/
theorem C21_count_refused : Place (demo pathDemo).cdts 0x80000005 [⟨nm "n", some 1⟩, ⟨nm "b", none⟩] none DAX_BOOL 2 32 ∧
    pathOf "O.n[1].b" 2 = .ok (noHandle, ERR_2BIG) := by
  have hb : Before (demo pathDemo).cdts [⟨nm "f", DAX_BOOL, 3⟩, ⟨nm "n", 0x80000004, 2⟩, ⟨nm "g", DAX_BOOL, 300⟩, ⟨nm "z", DAX_WORD, 2⟩] 0 (nm "n") ⟨nm "n", 0x80000004, 2⟩ 3 :=
    .later _ _ _ 1 _ _ _ (by decide) pathDemo_bool (.here ⟨nm "n", 0x80000004, 2⟩ _ _)
  refine ⟨?_, by kernel_rfl⟩
  exact .step 0x80000005 _ ⟨nm "n", some 1⟩ [⟨nm "b", none⟩] none ⟨nm "n", 0x80000004, 2⟩ 3 24 DAX_BOOL 2 0 ⟨by decide, by decide⟩ pathDemo_out hb ⟨by decide, by decide⟩ pathDemo_inElem (by decide)
      (.last 0x80000004 _ ⟨nm "b", none⟩ ⟨nm "b", DAX_BOOL, 2⟩ 0 1 ⟨by decide, by decide⟩ pathDemo_in (.here ⟨nm "b", DAX_BOOL, 2⟩ _ _) pathDemo_bool (by decide))

/-- **C21** fails: the handle of a BOOL in an array that does not begin at a whole byte may have bit number 8 or more (the place is right, but transfers with such a
handle go outside their buffers, see `C24`). -/
theorem C21_bit_number : pathOf "B.g[7]" 0 = .ok (⟨18, 0, 10, 1, 1, DAX_BOOL⟩, 0) := by kernel_rfl

/-- **C22** fails: the index of a tag is not checked if a member follows.  `L` has two elements, 50 bytes. -/
theorem C22_index : pathOf "L[5].a[1].y" 0 = .ok (⟨16, 141, 0, 2, 8, DAX_REAL⟩, 0) := by kernel_rfl

/-- **C22** fails: the index of a tag is not checked if a bit number follows.  `Speed` has four elements, 8 bytes. -/
theorem C22_bit_index : pathOf "Speed[9].3" 0 = .ok (⟨13, 18, 3, 1, 1, DAX_BOOL⟩, 0) := by kernel_rfl

/-- **C22** fails: bit 257 of a 16 bit integer is accepted, as bit 1. -/
theorem C22_bit_wraps : pathOf "Speed[0].257" 0 = .ok (⟨13, 0, 1, 1, 1, DAX_BOOL⟩, 0) := by kernel_rfl

/-- **C22** fails: a negative number of members is accepted, and makes a handle of four gigabytes. -/
theorem C22_negative : pathOf "O.z" (-1) = .ok (⟨17, 13, 0, 4294967295, 4294967294, DAX_WORD⟩, 0) := by kernel_rfl

end Dax
