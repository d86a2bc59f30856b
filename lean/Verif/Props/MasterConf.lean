import Verif.Model.MasterConf
import Verif.Spec.MasterConf
import Verif.Props.Logger
/-!
# Identity and arguments of the children of the process master: C101, C102
-/
set_option autoImplicit false
namespace Dax
open Dax.MasterConf

/-! ## Lemmas -/

theorem words_tokens {t : Name} {ws : List Name} (h : MasterConf.Words t ws) : tokens 32#8 t = ws := by
  unfold tokens
  induction h with
  | nil => rfl
  | @space t ws _ ih =>
    rw [show (32#8 : Byte) :: t = [] ++ 32#8 :: t from rfl, splitOn_mid, List.filter_append, ih]
    rfl
  | @last w h0 hw => rw [splitOn_plain _ _ hw, List.filter_cons_of_pos (by simpa using h0)]; rfl
  | @word w t ws h0 hw _ ih =>
    rw [splitOn_mid, List.filter_append, ih, splitOn_plain _ _ hw, List.filter_cons_of_pos (by simpa using h0)]
    rfl

/-- The process of an entry before its user and group are looked up. -/
def MasterConf.Entry.proc (e : MasterConf.Entry) (n p user group : Name) : MasterConf.Proc :=
  { name := n, path := p, args := MasterConf.arglist p e.args.str, restart := e.restart, user := user, group := group, uid := (e.uid.map i32).getD (-1), gid := (e.gid.map i32).getD (-1), env := e.env.str }

/-- What an entry adds. -/
theorem addProcess_ok {u : Users} {l l' : List MasterConf.Proc} {e : MasterConf.Entry} {n p : Name} (hn : e.name = .text n) (hp : e.path = .text p) (h : addProcess u l e = .ok l') :
    ∃ user group, textOr e.user (nm "opendax") = .ok user ∧ textOr e.group (nm "opendax") = .ok group ∧
      l' = l ++ [setIds u (e.proc n p user group)] := by
  unfold addProcess at h
  rw [hn, hp] at h
  dsimp only [MasterConf.Field.str] at h
  cases hu : textOr e.user (nm "opendax") with
  | ub y => rw [hu] at h; cases h
  | ok user =>
    cases hg : textOr e.group (nm "opendax") with
    | ub y => rw [hu, hg] at h; cases h
    | ok group =>
      rw [hu, hg] at h
      cases h
      exact ⟨user, group, rfl, rfl, rfl⟩

/-- The user and group an entry asks for: the number, or else the number of the name, or else that of `opendax`. -/
inductive Asks (look : Name → Option Nat) (name : MasterConf.Field) (number : Option Int) : Nat → Prop where
  | number {k : Nat} : number = some (k : Int) → k < 2147483648 → Asks look name number k
  | name {s : Name} {k : Nat} : number = none → name = .text s → look s = some k → k < 2147483648 → Asks look name number k
  | default {k : Nat} : number = none → name = .nil → look (nm "opendax") = some k → k < 2147483648 → Asks look name number k

theorem asks_id {look : Name → Option Nat} {f : MasterConf.Field} {number : Option Int} {k : Nat} {t : Name} (h : Asks look f number k) (ht : textOr f (nm "opendax") = .ok t) :
    (if (number.map i32).getD (-1) < 0 then (match look t with | some n => i32 n | none => (number.map i32).getD (-1)) else (number.map i32).getD (-1)) = (k : Int) := by
  have hi : ∀ j : Nat, j < 2147483648 → i32 (j : Int) = j := by intro j hj; unfold i32; omega
  cases h with
  | number hn hk =>
    subst hn
    simp only [Option.map_some, Option.getD_some, hi k hk]
    rw [if_neg (by omega)]
  | name hn hf hl hk =>
    subst hn hf
    injection ht with ht
    subst ht
    simp only [Option.map_none, Option.getD_none, hl, hi k hk]
    rw [if_pos (by omega)]
  | default hn hf hl hk =>
    subst hn hf
    injection ht with ht
    subst ht
    simp only [Option.map_none, Option.getD_none, hl, hi k hk]
    rw [if_pos (by omega)]

/-! ## C101: the identity of the children -/

/-- **C101**, user: with the rights of root, a child runs as the user its entry asks for; unless this is root it cannot get them back. -/
theorem C101_user {u : Users} {l l' : List MasterConf.Proc} {e : MasterConf.Entry} {n p : Name} (hn : e.name = .text n) (hp : e.path = .text p) (h : addProcess u l e = .ok l') {k : Nat} (hk : Asks u.uid e.user e.uid k)
    {c : Cred} (hc : c.euid = 0) : ∃ q, l' = l ++ [q] ∧ q.path = p ∧ (setUserGroup c q).euid = k ∧ (k ≠ 0 → (setUserGroup c q).ruid = k ∧ (setUserGroup c q).suid = k) := by
  obtain ⟨user, group, hu, hg, rfl⟩ := addProcess_ok hn hp h
  refine ⟨_, rfl, rfl, ?_⟩
  have hid : (setIds u (e.proc n p user group)).uid = (k : Int) := asks_id hk hu
  generalize setIds u (e.proc n p user group) = q at hid
  have hgid : ∀ (d : Cred) (x : Nat), (MasterConf.setgid d x).euid = d.euid ∧ (MasterConf.setgid d x).ruid = d.ruid ∧ (MasterConf.setgid d x).suid = d.suid := by
    intro d x
    unfold MasterConf.setgid
    by_cases h1 : d.euid = 0
    · rw [if_pos h1]; exact ⟨rfl, rfl, rfl⟩
    · rw [if_neg h1]
      by_cases h2 : x = d.rgid ∨ x = d.sgid
      · rw [if_pos h2]; exact ⟨rfl, rfl, rfl⟩
      · rw [if_neg h2]; exact ⟨rfl, rfl, rfl⟩
  have hrest : ∀ d : Cred, (if q.gid ≥ 0 ∧ q.gid ≠ c.egid then MasterConf.setgid d q.gid.toNat else d).euid = d.euid ∧ (if q.gid ≥ 0 ∧ q.gid ≠ c.egid then MasterConf.setgid d q.gid.toNat else d).ruid = d.ruid ∧
      (if q.gid ≥ 0 ∧ q.gid ≠ c.egid then MasterConf.setgid d q.gid.toNat else d).suid = d.suid := by
    intro d
    by_cases h1 : q.gid ≥ 0 ∧ q.gid ≠ c.egid
    · rw [if_pos h1]; exact hgid d _
    · rw [if_neg h1]; exact ⟨rfl, rfl, rfl⟩
  unfold setUserGroup
  dsimp only
  obtain ⟨r1, r2, r3⟩ := hrest (if q.uid ≥ 0 ∧ q.uid ≠ c.euid then MasterConf.setuid c q.uid.toNat else c)
  rw [r1, r2, r3, hid]
  by_cases h0 : k = 0
  · rw [if_neg (by omega)]
    exact ⟨by omega, fun hne => absurd h0 hne⟩
  · rw [if_pos (by omega)]
    unfold MasterConf.setuid
    rw [if_pos hc, Int.toNat_natCast]
    exact ⟨rfl, fun _ => ⟨rfl, rfl⟩⟩

/-- **C101**, group, for children that stay root.

Missing: all others (`C101_group_lost`). -/
theorem C101_group_partial {u : Users} {l l' : List MasterConf.Proc} {e : MasterConf.Entry} {n p : Name} (hn : e.name = .text n) (hp : e.path = .text p) (h : addProcess u l e = .ok l') (hk : Asks u.uid e.user e.uid 0)
    {g : Nat} (hgr : Asks u.gid e.group e.gid g) {c : Cred} (hc : c.euid = 0) : ∃ q, l' = l ++ [q] ∧ q.path = p ∧ (setUserGroup c q).egid = g := by
  obtain ⟨user, group, hu, hg, rfl⟩ := addProcess_ok hn hp h
  refine ⟨_, rfl, rfl, ?_⟩
  have hid : (setIds u (e.proc n p user group)).uid = ((0 : Nat) : Int) := asks_id hk hu
  have hgid : (setIds u (e.proc n p user group)).gid = (g : Int) := asks_id hgr hg
  generalize setIds u (e.proc n p user group) = q at hid hgid
  unfold setUserGroup
  dsimp only
  rw [hid, hgid, if_neg (fun h9 : ((0 : Nat) : Int) ≥ 0 ∧ ((0 : Nat) : Int) ≠ c.euid => by omega)]
  by_cases h1 : (g : Int) = c.egid
  · rw [if_neg (by omega)]; omega
  · rw [if_pos (by omega)]
    unfold MasterConf.setgid
    rw [if_pos hc, Int.toNat_natCast]

/-- **C101** fails: the user is changed before the group, and then the group cannot be changed any more: a child of the master of root that asks for another user keeps the group of root. -/
theorem C101_group_lost {u : Users} {l l' : List MasterConf.Proc} {e : MasterConf.Entry} {n p : Name} (hn : e.name = .text n) (hp : e.path = .text p) (h : addProcess u l e = .ok l') {k : Nat} (hk : Asks u.uid e.user e.uid k)
    (h0 : k ≠ 0) {c : Cred} (hc : c.euid = 0) (h1 : c.rgid = 0) (h2 : c.egid = 0) (h3 : c.sgid = 0) : ∃ q, l' = l ++ [q] ∧ q.path = p ∧ (setUserGroup c q).euid = k ∧ (setUserGroup c q).egid = 0 := by
  obtain ⟨q, hl, hq, he, -⟩ := C101_user hn hp h hk hc
  refine ⟨q, hl, hq, he, ?_⟩
  obtain ⟨user, group, hu, hg, hl'⟩ := addProcess_ok hn hp h
  have hqe := (List.append_cancel_left (hl.symm.trans hl'))
  have hid : q.uid = (k : Int) := by
    have : q = _ := List.head_eq_of_cons_eq hqe
    rw [this]
    exact asks_id hk hu
  unfold setUserGroup
  dsimp only
  rw [hid, if_pos (show (k : Int) ≥ 0 ∧ (k : Int) ≠ c.euid by omega), Int.toNat_natCast]
  unfold MasterConf.setuid
  rw [if_pos hc]
  by_cases hgd : q.gid ≥ 0 ∧ q.gid ≠ c.egid
  · rw [if_pos hgd]
    unfold MasterConf.setgid
    rw [if_neg (show ¬ k = 0 from h0), if_neg]
    · exact h2
    · rintro (h4 | h4)
      · rw [show ({ c with ruid := k, euid := k, suid := k } : Cred).rgid = c.rgid from rfl, h1] at h4; omega
      · rw [show ({ c with ruid := k, euid := k, suid := k } : Cred).sgid = c.sgid from rfl, h3] at h4; omega
  · rw [if_neg hgd]
    exact h2

/-- **C101** fails: a child whose user and group are not known runs as the master does, even as root. -/
theorem C101_unknown {u : Users} (l : List MasterConf.Proc) {e : MasterConf.Entry} {n p s g : Name} (hn : e.name = .text n) (hp : e.path = .text p) (hs : e.user = .text s) (hg : e.group = .text g) (h1 : e.uid = none) (h2 : e.gid = none)
    (hu : u.uid s = none) (hgr : u.gid g = none) (c : Cred) : ∃ q, addProcess u l e = .ok (l ++ [q]) ∧ q.path = p ∧ setUserGroup c q = c := by
  refine ⟨setIds u (e.proc n p s g), ?_, rfl, ?_⟩
  · unfold addProcess
    rw [hn, hp, hs, hg]
    rfl
  · have e1 : (setIds u (e.proc n p s g)).uid = -1 := by unfold setIds MasterConf.Entry.proc; rw [h1]; dsimp only; rw [hu]; rfl
    have e2 : (setIds u (e.proc n p s g)).gid = -1 := by unfold setIds MasterConf.Entry.proc; rw [h2]; dsimp only; rw [hgr]; rfl
    unfold setUserGroup
    dsimp only
    rw [e1, e2, if_neg (fun h9 => by omega), if_neg (fun h9 => by omega)]

/-- **C101** fails: if the master is not root, a child that asks for another user runs as the master does. -/
theorem C101_not_root (c : Cred) (q : MasterConf.Proc) {k : Nat} (hq : q.uid = k) (hg : q.gid < 0) (hc : c.euid ≠ 0) (h1 : k ≠ c.ruid) (h2 : k ≠ c.suid) : setUserGroup c q = c := by
  unfold setUserGroup
  dsimp only
  rw [if_neg (fun h : q.gid ≥ 0 ∧ q.gid ≠ c.egid => by omega)]
  by_cases h : q.uid ≥ 0 ∧ q.uid ≠ c.euid
  · rw [if_pos h, hq, Int.toNat_natCast]
    unfold MasterConf.setuid
    rw [if_neg hc, if_neg (fun h3 => h3.elim h1 h2)]
  · rw [if_neg h]

/-- **C101**: a master that runs with the rights of root for another user takes only a configuration file of root that others cannot write. -/
theorem C101_trusted {ruid : Nat} (hr : ruid ≠ 0) {s : Option Stat} (h : trusted ruid 0 s = true) : ∃ t, s = some t ∧ t.uid = 0 ∧ t.gid = 0 ∧ t.mode.testBit 1 = false := by
  unfold trusted at h
  rw [if_pos ⟨rfl, hr⟩] at h
  cases s with
  | none => cases h
  | some t =>
    dsimp only at h
    by_cases h1 : t.uid ≠ 0 ∨ t.gid ≠ 0
    · rw [if_pos h1] at h; cases h
    · rw [if_neg h1] at h
      cases hm : t.mode.testBit 1 with
      | true => rw [hm] at h; cases h
      | false => exact ⟨t, rfl, by omega, by omega, hm⟩

/-! ## C102: the arguments of the children -/

/-- **C102**: a child is executed with its path and the words of its arguments.

Missing: entries without arguments (`C102_none`). -/
theorem C102_args_partial {u : Users} {l l' : List MasterConf.Proc} {e : MasterConf.Entry} {n p t : Name} {ws : List Name} (hn : e.name = .text n) (hp : e.path = .text p) (ht : e.args = .text t) (hw : MasterConf.Words t ws)
    (h : addProcess u l e = .ok l') (c : Cred) : ∃ q d, l' = l ++ [q] ∧ q.name = n ∧ MasterConf.child c q = .ok (p, p :: ws, d) := by
  obtain ⟨user, group, hu, hg, rfl⟩ := addProcess_ok hn hp h
  have ea : (setIds u (e.proc n p user group)).args = ⟨p :: ws, true⟩ := by
    show MasterConf.arglist p e.args.str = _
    rw [ht, ← words_tokens hw]
    rfl
  refine ⟨_, setUserGroup c (setIds u (e.proc n p user group)), rfl, rfl, ?_⟩
  unfold MasterConf.child
  rw [ea]
  rfl

/-- **C102** fails: without arguments the array has no end. -/
theorem C102_none {u : Users} {l l' : List MasterConf.Proc} {e : MasterConf.Entry} {n p : Name} (hn : e.name = .text n) (hp : e.path = .text p) (ht : e.args = .nil) (h : addProcess u l e = .ok l') (c : Cred) :
    ∃ q y, l' = l ++ [q] ∧ MasterConf.child c q = .ub y := by
  obtain ⟨user, group, hu, hg, rfl⟩ := addProcess_ok hn hp h
  have ea : (setIds u (e.proc n p user group)).args.ended = false := by
    show (MasterConf.arglist p e.args.str).ended = _
    rw [ht]
    rfl
  refine ⟨_, "arguments without end", rfl, ?_⟩
  unfold MasterConf.child
  rw [ea]
  rfl

/-- **C102**: one process is printed with all its arguments, if it has no environment. -/
theorem C102_print_partial {q : MasterConf.Proc} (he : q.args.ended = true) (hv : q.env = none) : MasterConf.printList 0 [q] = .ok [q.args.words] := by
  unfold MasterConf.printList
  rw [he, hv, if_neg (by simp), if_neg (by omega), if_neg (by simp)]
  rfl

/-- **C102** fails: the place is not set back, and after a process with more arguments the master reads outside of the arguments of the next. -/
theorem C102_print_outside {q r : MasterConf.Proc} (rest : List MasterConf.Proc) (he : q.args.ended = true) (hr : r.args.ended = true) (hv : q.env = none) (h : r.args.words.length < q.args.words.length) :
    ∃ y, MasterConf.printList 0 (q :: r :: rest) = .ub y := by
  refine ⟨"read outside block", ?_⟩
  unfold MasterConf.printList
  rw [he, hv, if_neg (by simp), if_neg (by omega), if_neg (by simp)]
  unfold MasterConf.printList
  rw [hr, if_neg (by simp), if_pos h]
  rfl

/-- **C102** fails: with as many arguments the second process is printed without any. -/
theorem C102_print_lost {q r : MasterConf.Proc} (he : q.args.ended = true) (hr : r.args.ended = true) (hv : q.env = none) (hv' : r.env = none) (h : r.args.words.length = q.args.words.length) :
    MasterConf.printList 0 [q, r] = .ok [q.args.words, []] := by
  unfold MasterConf.printList
  rw [he, hv, if_neg (by simp), if_neg (by omega), if_neg (by simp)]
  unfold MasterConf.printList
  rw [hr, hv', if_neg (by simp), if_neg (by omega), if_neg (by simp), ← h, List.drop_length]
  rfl

/-- **C102** fails: the environment of a process is printed after Lua has freed it. -/
theorem C102_print_env {q : MasterConf.Proc} (rest : List MasterConf.Proc) (he : q.args.ended = true) (hv : q.env.isSome) : ∃ y, MasterConf.printList 0 (q :: rest) = .ub y := by
  refine ⟨"use after free", ?_⟩
  unfold MasterConf.printList
  rw [he, if_neg (by simp), if_neg (by omega), if_pos hv]

/-- Instance of the hypotheses: the tag server as user 1001. -/
example : ∃ l', addProcess ⟨fun _ => some 1001, fun _ => some 1002⟩ [] { name := .text (nm "server"), path := .text (nm "tagserver"), args := .text (nm " -C  x"), restart := true } = .ok l' ∧
    Asks (fun _ => some 1001) .nil none 1001 ∧ MasterConf.Words (nm " -C  x") [nm "-C", nm "x"] :=
  ⟨_, rfl, .default rfl rfl rfl (by decide), .space (.word (w := nm "-C") (by decide) (by decide) (.space (.last (by decide) (by decide))))⟩

end Dax
