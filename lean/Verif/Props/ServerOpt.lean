import Verif.Lemmas.ServerOpt
import Verif.Lemmas.Conv
import Verif.Props.Logger
/-!
# Configuration of the server: C99
-/
set_option autoImplicit false
namespace Dax
open Dax.Conv

/-- The file that is read: the one of the command line, or the one in `ETC_DIR`. -/
def confFile (w : ServerOpt.World) (os : List (Byte × Name)) : Option ServerOpt.Globals := w.files ((ServerOpt.given 67#8 os).getD (w.etc ++ nm "/tagserver.conf"))

/-- What `configure` makes of a command line. -/
theorem configure_spells {w : ServerOpt.World} {argv : List Name} {os : List (Byte × Name)} (h : ServerOpt.Spells argv os) :
    ∃ c1 : ServerOpt.Conf, c1.configfile = ServerOpt.given 67#8 os ∧ c1.socketname = ServerOpt.given 83#8 os ∧ c1.exclude = ServerOpt.given 88#8 os ∧ c1.minBuffers = 0 ∧
      c1.serverport = ((ServerOpt.given 80#8 os).map fun t => u32 (strtol0 t)).getD 0 ∧ c1.serverip = ((((os.filter fun o => o.1 == 73#8).filterMap fun o => w.aton o.2)).getLast?).getD 0 ∧
      ServerOpt.configure w argv = (do let c ← ServerOpt.readConfig w c1; .ok (some (ServerOpt.setDefaults c))) := by
  obtain ⟨c', h0, h1, h2, h3, h4, h5, h6⟩ := ServerOpt.parse_hits w os (ServerOpt.spells_valued h) {}
  refine ⟨c', by rw [h1, Option.or_none], by rw [h2, Option.or_none], by rw [h3, Option.or_none], h4, h5, h6, ?_⟩
  unfold ServerOpt.configure
  rw [ServerOpt.parse_plain, ServerOpt.getopt_spells h _ (Nat.lt_succ_self _), h0]

/-- What the configuration file makes of it. -/
theorem readConfig_cases {w : ServerOpt.World} {c1 c : ServerOpt.Conf} {os : List (Byte × Name)} (h1 : c1.configfile = ServerOpt.given 67#8 os) (h : ServerOpt.readConfig w c1 = .ok c) :
    (confFile w os = none ∧ c = c1) ∨ ∃ g mb sp, confFile w os = some g ∧ ServerOpt.readMin c1 g = .ok mb ∧ ServerOpt.readPort c1 g = .ok sp ∧
      c = { c1 with
        minBuffers := mb
        socketname := if c1.socketname = none then g.socketname else c1.socketname
        serverport := sp
        serverip := if c1.serverip = 0 then ((g.serverip.bind w.aton).getD c1.serverip) else c1.serverip
        exclude := if c1.exclude = none then g.exclude else c1.exclude } := by
  unfold ServerOpt.readConfig at h
  rw [h1] at h
  unfold confFile
  cases hf : w.files ((ServerOpt.given 67#8 os).getD (w.etc ++ nm "/tagserver.conf")) with
  | none =>
    rw [hf] at h
    cases h
    exact .inl ⟨rfl, rfl⟩
  | some g =>
    rw [hf] at h
    right
    dsimp only at h
    cases hm : ServerOpt.readMin c1 g with
    | ub y => rw [hm] at h; cases h
    | ok mb =>
      cases hp : ServerOpt.readPort c1 g with
      | ub y => rw [hm, hp] at h; cases h
      | ok sp =>
        rw [hm, hp] at h
        cases h
        refine ⟨g, mb, sp, rfl, hm, hp, ?_⟩
        rw [← h1]

/-- The same from the end. -/
theorem configure_cases {w : ServerOpt.World} {c1 c : ServerOpt.Conf} (h : (do let c ← ServerOpt.readConfig w c1; .ok (some (ServerOpt.setDefaults c)) : C (Option ServerOpt.Conf)) = .ok (some c)) :
    ∃ c2, ServerOpt.readConfig w c1 = .ok c2 ∧ c = ServerOpt.setDefaults c2 := by
  cases hr : ServerOpt.readConfig w c1 with
  | ub y => rw [hr] at h; cases h
  | ok c2 => rw [hr] at h; cases h; exact ⟨c2, rfl, rfl⟩

/-- **C99**, socket and modules without tags: the last value on the command line, or else the one of the configuration file, or else the default. -/
theorem C99_text {w : ServerOpt.World} {argv : List Name} {os : List (Byte × Name)} {c : ServerOpt.Conf} (h : ServerOpt.Spells argv os) (hc : ServerOpt.configure w argv = .ok (some c)) :
    c.socketname = some ((((ServerOpt.given 83#8 os).or ((confFile w os).bind (·.socketname)))).getD (nm "/tmp/opendax")) ∧
    c.exclude = (ServerOpt.given 88#8 os).or ((confFile w os).bind (·.exclude)) := by
  obtain ⟨c1, h1, h2, h3, h4, h5, h6, h7⟩ := configure_spells (w := w) h
  rw [h7] at hc
  obtain ⟨c2, hr, rfl⟩ := configure_cases hc
  rcases readConfig_cases h1 hr with ⟨hf, rfl⟩ | ⟨g, mb, sp, hf, -, -, rfl⟩
  · rw [hf]
    constructor
    · show (if c2.socketname = none then _ else c2.socketname) = _
      rw [h2]
      cases ServerOpt.given 83#8 os <;> rfl
    · show c2.exclude = _
      rw [h3, Option.bind_none, Option.or_none]
  · rw [hf]
    constructor
    · show (if (if c1.socketname = none then g.socketname else c1.socketname) = none then _ else (if c1.socketname = none then g.socketname else c1.socketname)) = _
      rw [h2]
      cases ServerOpt.given 83#8 os with
      | some v => rfl
      | none =>
        show (if g.socketname = none then some _ else g.socketname) = some (g.socketname.getD _)
        cases g.socketname <;> rfl
    · show (if c1.exclude = none then g.exclude else c1.exclude) = _
      rw [h3]
      cases ServerOpt.given 88#8 os <;> rfl

/-- **C99**, port: a port on the command line, or else in the configuration file, or else 7777 is the port the server listens on.

Missing: values on the command line that are 0 or no port (`C99_zero`, `C99_wraps`). -/
theorem C99_port_partial {w : ServerOpt.World} {argv : List Name} {os : List (Byte × Name)} {c : ServerOpt.Conf} (h : ServerOpt.Spells argv os) (hc : ServerOpt.configure w argv = .ok (some c)) :
    (∀ t n, ServerOpt.given 80#8 os = some t → IsDec t n → 0 < n → n < 65536 → (ServerOpt.remotePort c : Int) = n) ∧
    (∀ g, ServerOpt.given 80#8 os = none → confFile w os = some g → 0 < g.serverport → g.serverport < 65536 → (ServerOpt.remotePort c : Int) = g.serverport) ∧
    (ServerOpt.given 80#8 os = none → (∀ g, confFile w os = some g → g.serverport = 0) → ServerOpt.remotePort c = 7777) := by
  obtain ⟨c1, h1, h2, h3, h4, h5, h6, h7⟩ := configure_spells (w := w) h
  rw [h7] at hc
  obtain ⟨c2, hr, rfl⟩ := configure_cases hc
  have hport : ServerOpt.remotePort (ServerOpt.setDefaults c2) = (if c2.serverport = 0 then 7777 else c2.serverport) % 65536 := rfl
  rw [hport]
  have hnone : c1.serverport = 0 → confFile w os = none → c2.serverport = 0 := by
    intro h0 hf
    rcases readConfig_cases h1 hr with ⟨-, rfl⟩ | ⟨g, mb, sp, hg, -⟩
    · exact h0
    · rw [hf] at hg; cases hg
  have hsome : ∀ g, c1.serverport = 0 → confFile w os = some g → ServerOpt.toInt g.serverport = .ok g.serverport ∧ c2.serverport = u32 g.serverport := by
    intro g h0 hf
    rcases readConfig_cases h1 hr with ⟨hg, rfl⟩ | ⟨g', mb, sp, hg, -, hp, rfl⟩
    · rw [hf] at hg; cases hg
    · rw [hf] at hg
      cases hg
      unfold ServerOpt.readPort at hp
      rw [if_pos h0] at hp
      unfold ServerOpt.toInt at hp ⊢
      by_cases hb : -2147483648 ≤ g.serverport ∧ g.serverport ≤ 2147483647
      · rw [if_pos hb] at hp ⊢
        cases hp
        exact ⟨rfl, rfl⟩
      · rw [if_neg hb] at hp
        cases hp
  refine ⟨?_, ?_, ?_⟩
  · intro t n ht hd g0 g1
    have hs : strtol0 t = n := by
      rw [strtol0_dec hd]
      unfold clampLong
      omega
    have hu : u32 n = n.toNat := by unfold u32; omega
    have h0 : c1.serverport = n.toNat := by
      rw [h5, ht]
      show u32 (strtol0 t) = _
      rw [hs, hu]
    have h2' : c2.serverport = n.toNat := by
      rcases readConfig_cases h1 hr with ⟨-, rfl⟩ | ⟨g, mb, sp, -, -, hp, rfl⟩
      · exact h0
      · unfold ServerOpt.readPort at hp
        rw [if_neg (by omega), h0] at hp
        cases hp
        rfl
    rw [h2', if_neg (by omega)]
    omega
  · intro g hn hf g0 g1
    have h0 : c1.serverport = 0 := by rw [h5, hn]; rfl
    rw [(hsome g h0 hf).2]
    unfold u32
    rw [if_neg (by omega)]
    omega
  · intro hn hf
    have h0 : c1.serverport = 0 := by rw [h5, hn]; rfl
    have : c2.serverport = 0 := by
      cases hg : confFile w os with
      | none => exact hnone h0 hg
      | some g =>
        rw [(hsome g h0 hg).2, hf g hg]
        rfl
    rw [this]
    rfl

/-- **C99**, address: an address on the command line, or else in the configuration file, or else all addresses.

Missing: 0.0.0.0 and text that is no address on the command line (`C99_zero`, `C99_address`). -/
theorem C99_address_partial {w : ServerOpt.World} {argv : List Name} {os : List (Byte × Name)} {c : ServerOpt.Conf} (h : ServerOpt.Spells argv os) (hc : ServerOpt.configure w argv = .ok (some c)) :
    (∀ t a, ServerOpt.given 73#8 os = some t → w.aton t = some a → a ≠ 0 → c.serverip = a) ∧
    (∀ g t a, ServerOpt.given 73#8 os = none → confFile w os = some g → g.serverip = some t → w.aton t = some a → c.serverip = a) ∧
    (ServerOpt.given 73#8 os = none → (∀ g, confFile w os = some g → g.serverip = none) → c.serverip = 0) := by
  obtain ⟨c1, h1, h2, h3, h4, h5, h6, h7⟩ := configure_spells (w := w) h
  rw [h7] at hc
  obtain ⟨c2, hr, rfl⟩ := configure_cases hc
  have hip : (ServerOpt.setDefaults c2).serverip = c2.serverip := rfl
  rw [hip]
  have hnone : ServerOpt.given 73#8 os = none → c1.serverip = 0 := by
    intro hn
    have : os.filter (fun o => o.1 == 73#8) = [] := by
      unfold ServerOpt.given at hn
      have := List.getLast?_eq_none_iff.mp hn
      simpa using this
    rw [h6, this]
    rfl
  refine ⟨?_, ?_, ?_⟩
  · intro t a ht ha h0
    have hl : c1.serverip = a := by
      unfold ServerOpt.given at ht
      rw [List.getLast?_map] at ht
      cases hq : (os.filter fun o => o.1 == 73#8).getLast? with
      | none => rw [hq] at ht; cases ht
      | some o =>
        rw [hq] at ht
        obtain rfl : o.2 = t := by simpa using ht
        obtain ⟨l, hl⟩ := List.getLast?_eq_some_iff.mp hq
        rw [h6, hl, List.filterMap_append, List.filterMap_cons, ha, List.filterMap_nil, List.getLast?_append]
        rfl
    rcases readConfig_cases h1 hr with ⟨-, rfl⟩ | ⟨g, mb, sp, -, -, -, rfl⟩
    · exact hl
    · show (if c1.serverip = 0 then _ else c1.serverip) = a
      rw [if_neg (by omega), hl]
  · intro g t a hn hf hg ha
    rcases readConfig_cases h1 hr with ⟨hf', -⟩ | ⟨g', mb, sp, hf', -, -, rfl⟩
    · rw [hf] at hf'; cases hf'
    · rw [hf] at hf'
      cases hf'
      show (if c1.serverip = 0 then (g.serverip.bind w.aton).getD c1.serverip else c1.serverip) = a
      rw [if_pos (hnone hn), hg]
      show (w.aton t).getD _ = a
      rw [ha]
      rfl
  · intro hn hf
    rcases readConfig_cases h1 hr with ⟨-, rfl⟩ | ⟨g, mb, sp, hg, -, -, rfl⟩
    · exact hnone hn
    · show (if c1.serverip = 0 then (g.serverip.bind w.aton).getD c1.serverip else c1.serverip) = 0
      rw [if_pos (hnone hn), hf g hg]
      exact hnone hn

/-- **C99**, buffers: the number in the configuration file, or else 5. -/
theorem C99_buffers {w : ServerOpt.World} {argv : List Name} {os : List (Byte × Name)} {c : ServerOpt.Conf} (h : ServerOpt.Spells argv os) (hc : ServerOpt.configure w argv = .ok (some c)) :
    (∀ g, confFile w os = some g → g.minBuffers ≠ 0 → c.minBuffers = g.minBuffers) ∧ ((∀ g, confFile w os = some g → g.minBuffers = 0) → c.minBuffers = 5) := by
  obtain ⟨c1, h1, h2, h3, h4, h5, h6, h7⟩ := configure_spells (w := w) h
  rw [h7] at hc
  obtain ⟨c2, hr, rfl⟩ := configure_cases hc
  have hb : (ServerOpt.setDefaults c2).minBuffers = if c2.minBuffers = 0 then 5 else c2.minBuffers := rfl
  rw [hb]
  rcases readConfig_cases h1 hr with ⟨hf, rfl⟩ | ⟨g, mb, sp, hf, hm, -, rfl⟩
  · rw [hf, h4]
    exact ⟨fun g hg => (by cases hg), fun _ => rfl⟩
  · rw [hf]
    have hmb : mb = g.minBuffers := by
      unfold ServerOpt.readMin at hm
      rw [if_pos h4] at hm
      unfold ServerOpt.toInt at hm
      by_cases hb : -2147483648 ≤ g.minBuffers ∧ g.minBuffers ≤ 2147483647
      · rw [if_pos hb] at hm; cases hm; rfl
      · rw [if_neg hb] at hm; cases hm
    constructor
    · intro g' hg h0
      cases hg
      show (if mb = 0 then 5 else mb) = _
      rw [hmb, if_neg h0]
    · intro hg
      show (if mb = 0 then 5 else mb) = _
      rw [hmb, hg g rfl]
      rfl

/-- **C99**: every command line that is spelled gives a configuration, if the numbers in the file are in the range of `int`. -/
theorem C99_defined {w : ServerOpt.World} {argv : List Name} {os : List (Byte × Name)} (h : ServerOpt.Spells argv os)
    (hg : ∀ g, confFile w os = some g → (-2147483648 ≤ g.minBuffers ∧ g.minBuffers ≤ 2147483647) ∧ -2147483648 ≤ g.serverport ∧ g.serverport ≤ 2147483647) : ∃ c, ServerOpt.configure w argv = .ok (some c) := by
  obtain ⟨c1, h1, h2, h3, h4, h5, h6, h7⟩ := configure_spells (w := w) h
  rw [h7]
  unfold ServerOpt.readConfig
  rw [h1]
  unfold confFile at hg
  cases hf : w.files ((ServerOpt.given 67#8 os).getD (w.etc ++ nm "/tagserver.conf")) with
  | none => exact ⟨_, rfl⟩
  | some g =>
    obtain ⟨g1, g2⟩ := hg g hf
    have hm : ServerOpt.readMin c1 g = .ok g.minBuffers := by
      unfold ServerOpt.readMin ServerOpt.toInt
      rw [if_pos h4, if_pos g1]
    have hp : ∃ p, ServerOpt.readPort c1 g = .ok p := by
      unfold ServerOpt.readPort ServerOpt.toInt
      rw [if_pos g2]
      by_cases h0 : c1.serverport = 0
      · rw [if_pos h0]; exact ⟨_, rfl⟩
      · rw [if_neg h0]; exact ⟨_, rfl⟩
    obtain ⟨p, hp⟩ := hp
    dsimp only
    rw [hm, hp]
    exact ⟨_, rfl⟩

/-- **C99**, modules without tags: the words of the text, and no others. -/
theorem C99_excluded (c : ServerOpt.Conf) (name : Name) : ServerOpt.excluded c name = true ↔ ∃ t, c.exclude = some t ∧ ServerOpt.WordOf name t := by
  unfold ServerOpt.excluded
  cases c.exclude with
  | none => exact ⟨fun h => (by cases h), fun ⟨t, h, _⟩ => (by cases h)⟩
  | some t =>
    have key : (tokens 32#8 t).any (fun x => x == name) = true ↔ name ∈ tokens 32#8 t := by
      rw [List.any_eq_true]
      exact ⟨fun ⟨x, hx, he⟩ => by rw [beq_iff_eq] at he; rw [← he]; exact hx, fun h => ⟨name, h, by simp⟩⟩
    dsimp only
    rw [key]
    have hmem : name ∈ tokens 32#8 t ↔ name ∈ splitOn 32#8 t ∧ name ≠ [] := by
      unfold tokens
      rw [List.mem_filter]
      simp
    rw [hmem]
    constructor
    · rintro ⟨hs, h0⟩
      refine ⟨t, rfl, h0, ?_⟩
      obtain ⟨p0, ps, e1, e2, ⟨q, e3, e4⟩, e5⟩ := splitOn_pieces 32#8 t
      rw [e1] at hs
      rcases List.mem_cons.mp hs with rfl | hs
      · exact ⟨e2, [], q, .inl rfl, e4, e3⟩
      · obtain ⟨g1, p, q', g2, g3⟩ := e5 _ hs
        exact ⟨g1, p ++ [32#8], q', .inr ⟨p, rfl⟩, g3, g2⟩
    · rintro ⟨t', ht, h0, h32, pre, post, hpre, hpost, rfl⟩
      cases ht
      refine ⟨?_, h0⟩
      have hp : name ∈ splitOn 32#8 (name ++ post) := by
        rcases hpost with rfl | ⟨q, rfl⟩
        · rw [List.append_nil, splitOn_plain _ _ h32]
          exact List.mem_singleton.mpr rfl
        · rw [splitOn_mid, splitOn_plain _ _ h32]
          exact List.mem_append_left _ (List.mem_singleton.mpr rfl)
      rcases hpre with rfl | ⟨q, rfl⟩
      · exact hp
      · rw [List.append_assoc, List.append_assoc, List.singleton_append, splitOn_mid]
        exact List.mem_append_right _ hp

/-- **C99** fails: 0.0.0.0 on the command line does not count when the configuration file has an address. -/
theorem C99_zero (w : ServerOpt.World) {s t : Name} {a : Nat} {g : ServerOpt.Globals} (hs : w.aton s = some 0) (hf : w.files (w.etc ++ nm "/tagserver.conf") = some g) (hm : g.minBuffers = 0) (hp : g.serverport = 0)
    (ht : g.serverip = some t) (ha : w.aton t = some a) : ∃ c, ServerOpt.configure w [nm "-I", s] = .ok (some c) ∧ c.serverip = a := by
  have hsp : ServerOpt.Spells [nm "-I", s] [(73#8, s)] := .short (by decide) .nil
  have hcf : confFile w [(73#8, s)] = some g := hf
  obtain ⟨c, hc⟩ := C99_defined (w := w) hsp (by intro g' hg'; rw [hcf] at hg'; cases hg'; rw [hm, hp]; decide)
  refine ⟨c, hc, ?_⟩
  obtain ⟨c1, h1, h2, h3, h4, h5, h6, h7⟩ := configure_spells (w := w) hsp
  rw [h7] at hc
  obtain ⟨c2, hr, rfl⟩ := configure_cases hc
  have h0 : c1.serverip = 0 := by
    rw [h6]
    show ((List.filterMap (fun o : Byte × Name => w.aton o.2) [(73#8, s)]).getLast?).getD 0 = 0
    rw [List.filterMap_cons, hs]
    rfl
  rcases readConfig_cases h1 hr with ⟨hf', -⟩ | ⟨g', mb, sp, hf', -, -, rfl⟩
  · rw [hcf] at hf'; cases hf'
  · rw [hcf] at hf'
    cases hf'
    show (if c1.serverip = 0 then (g.serverip.bind w.aton).getD c1.serverip else c1.serverip) = a
    rw [if_pos h0, ht]
    show (w.aton t).getD _ = a
    rw [ha]
    rfl

/-- **C99** fails: with a name in place of an address, such as `localhost`, the server listens on all addresses. -/
theorem C99_address (w : ServerOpt.World) {s : Name} (hs : w.aton s = none) (hf : w.files (w.etc ++ nm "/tagserver.conf") = none) :
    ∃ c, ServerOpt.configure w [nm "-I", s] = .ok (some c) ∧ c.serverip = 0 := by
  have hsp : ServerOpt.Spells [nm "-I", s] [(73#8, s)] := .short (by decide) .nil
  have hcf : confFile w [(73#8, s)] = none := hf
  obtain ⟨c, hc⟩ := C99_defined (w := w) hsp (by intro g' hg'; rw [hcf] at hg'; cases hg')
  refine ⟨c, hc, ?_⟩
  obtain ⟨c1, h1, h2, h3, h4, h5, h6, h7⟩ := configure_spells (w := w) hsp
  rw [h7] at hc
  obtain ⟨c2, hr, rfl⟩ := configure_cases hc
  rcases readConfig_cases h1 hr with ⟨-, rfl⟩ | ⟨g', mb, sp, hf', -⟩
  · show c2.serverip = 0
    rw [h6]
    show ((List.filterMap (fun o : Byte × Name => w.aton o.2) [(73#8, s)]).getLast?).getD 0 = 0
    rw [List.filterMap_cons, hs]
    rfl
  · rw [hcf] at hf'; cases hf'

/-- **C99** fails: 73313 is no port, and the server listens on 7777. -/
theorem C99_wraps (w : ServerOpt.World) (hf : w.files (w.etc ++ nm "/tagserver.conf") = none) : ∃ c, ServerOpt.configure w [nm "-P", nm "73313"] = .ok (some c) ∧ ServerOpt.remotePort c = 7777 := by
  have hsp : ServerOpt.Spells [nm "-P", nm "73313"] [(80#8, nm "73313")] := .short (by decide) .nil
  have hcf : confFile w [(80#8, nm "73313")] = none := hf
  obtain ⟨c, hc⟩ := C99_defined (w := w) hsp (by intro g' hg'; rw [hcf] at hg'; cases hg')
  refine ⟨c, hc, ?_⟩
  obtain ⟨c1, h1, h2, h3, h4, h5, h6, h7⟩ := configure_spells (w := w) hsp
  rw [h7] at hc
  obtain ⟨c2, hr, rfl⟩ := configure_cases hc
  rcases readConfig_cases h1 hr with ⟨-, rfl⟩ | ⟨g', mb, sp, hf', -⟩
  · show (if c2.serverport = 0 then 7777 else c2.serverport) % 65536 = 7777
    rw [h5]
    decide
  · rw [hcf] at hf'; cases hf'

/-- **C99** fails: a path of 108 bytes or more has no end in the address of the socket; a shorter one is used as it is. -/
theorem C99_path {c : ServerOpt.Conf} {s : Name} (h : c.socketname = some s) : (s.length < 108 → ServerOpt.localPath c = .ok s) ∧ (108 ≤ s.length → ∃ y, ServerOpt.localPath c = .ub y) := by
  unfold ServerOpt.localPath
  rw [h]
  exact ⟨fun hl => if_pos hl, fun hl => ⟨_, if_neg (by show ¬ s.length < 108; omega)⟩⟩

/-- **C99** fails: the letter of the topics of the log is not accepted, only the long name. -/
theorem C99_topics (x : Name) (hx : x.head? ≠ some 45#8) : ServerOpt.getopt 3 [nm "-T", x] = [ServerOpt.bad] ∧ ServerOpt.getopt 3 [nm "--logtopics", x] = [⟨84#8, some x⟩] := by
  constructor
  · show ServerOpt.bad :: ServerOpt.getopt 2 [x] = _
    match x with
    | [] => rfl
    | [_] => rfl
    | d :: c :: cs =>
      have hd : ¬ d = 45#8 := fun hc => hx (by rw [hc]; rfl)
      unfold ServerOpt.getopt
      dsimp only
      rw [if_neg hd]
      rfl
  · rfl

/-- Instance of the hypotheses: all spellings at once. -/
example : ServerOpt.Spells [nm "-v", nm "-S", nm "/a", nm "-P99", nm "--serverip", nm "1.2.3.4", nm "x", nm "--socketname=/b"] [(83#8, nm "/a"), (80#8, nm "99"), (73#8, nm "1.2.3.4"), (83#8, nm "/b")] :=
  .verbose (.short (by decide) (.glued (c := 80#8) (by decide) (.long (n := nm "serverip") (by decide) (.other (by decide) (.equals (n := nm "socketname") (v := nm "/b") (by decide) .nil)))))

end Dax
