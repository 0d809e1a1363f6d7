import Verif.Model.Dns

/-! C74: a call of `map` or `optimize` leaves the name servers of the machine as they were. -/

namespace LitData.Props

open LitData

theorem inText_iff (p s : PathStr) : inText p s = true ↔ ∃ a b, s = a ++ p ++ b := by
  unfold inText
  rw [List.any_eq_true]
  constructor
  · rintro ⟨i, _, h⟩
    obtain ⟨b, hb⟩ := List.isPrefixOf_iff_prefix.1 h
    exact ⟨s.take i, b, by rw [List.append_assoc, hb, List.take_append_drop]⟩
  · rintro ⟨a, b, rfl⟩
    refine ⟨a.length, List.mem_range.2 (by simp; omega), ?_⟩
    rw [List.append_assoc, List.drop_left]
    exact List.isPrefixOf_iff_prefix.2 ⟨b, rfl⟩

/-- A line that names a local name server. -/
def LocalServer (l : PathStr) : Prop := ∃ a b, l = a ++ "nameserver 127".toList ++ b

theorem switchDns_eq (enable : Bool) (lines : List PathStr) (h : ∀ l ∈ lines, LocalServer l → l = if enable then dnsCacheLine else dnsSystemLine) : switchDns enable lines = lines := by
  unfold switchDns
  conv => rhs; rw [← List.map_id lines]
  refine List.map_congr_left fun l hl => ?_
  split
  · rename_i ht
    exact (h l hl ((inText_iff _ _).1 ht)).symm
  · rfl

theorem optimizeDns_on (works : Bool) (lines : List PathStr) : optimizeDns true works true lines = if lines.any (inText "127.0.0.53".toList) && works then switchDns true lines else lines := by
  unfold optimizeDns
  cases lines.any (inText "127.0.0.53".toList) <;> rfl

theorem optimizeDns_off (works : Bool) (lines : List PathStr) : optimizeDns true works false lines = if lines.any (inText "127.0.0.1".toList) && works then switchDns false lines else lines := by
  unfold optimizeDns
  cases lines.any (inText "127.0.0.1".toList) <;> rfl

theorem cache_local : inText "nameserver 127".toList dnsCacheLine = true := by decide
theorem system_local : inText "nameserver 127".toList dnsSystemLine = true := by decide

theorem switchDns_twice (e e' : Bool) (lines : List PathStr) : switchDns e (switchDns e' lines) = switchDns e lines := by
  unfold switchDns
  rw [List.map_map]
  refine List.map_congr_left fun l _ => ?_
  simp only [Function.comp]
  by_cases h : inText "nameserver 127".toList l = true
  · rw [if_pos h, if_pos h, if_pos]
    cases e'
    · exact system_local
    · exact cache_local
  · rw [if_neg h, if_neg h]

/-- **C74.** In a Studio whose local name server, if any, is written as systemd does, and with no other text like `127.0.0.1` in the file, the file is after the call as it was before, whether the call
returns or raises, if the commands work. With `optimize_dns` the name server is the local cache during the call. -/
theorem c74_restored_partial (lines : List PathStr) (hl : ∀ l ∈ lines, LocalServer l → l = "nameserver 127.0.0.53\n".toList) (hn : ∀ l ∈ lines, ¬ ∃ a b, l = a ++ "127.0.0.1".toList ++ b)
    (enable : Bool) (e : BodyEnd) (he : e ≠ .interrupted) :
    dnsAfter true true true enable e lines = lines ∧
    (enable = false → dnsDuring true true enable lines = lines) ∧
    (enable = true → ∀ (i : Nat) l, lines[i]? = some l → (dnsDuring true true enable lines)[i]? = some (if inText "nameserver 127".toList l then "nameserver 127.0.0.1\n".toList else l)) := by
  have hn' : lines.any (inText "127.0.0.1".toList) = false := by
    rw [List.any_eq_false]
    intro l h1 h2
    exact hn l h1 ((inText_iff _ _).1 h2)
  have hsame : switchDns false lines = lines := switchDns_eq false lines fun l h1 h2 => hl l h1 h2
  have hoff : optimizeDns true true false lines = lines := by rw [optimizeDns_off, hn']; rfl
  have hlines : ∀ (i : Nat) l, lines[i]? = some l → (switchDns true lines)[i]? = some (if inText "nameserver 127".toList l then "nameserver 127.0.0.1\n".toList else l) := by
    intro i l hi
    rw [switchDns, List.getElem?_map, hi]
    rfl
  -- without a local name server nothing is switched
  have hnone : lines.any (inText "127.0.0.53".toList) = false → switchDns true lines = lines := by
    intro h
    refine switchDns_eq true lines fun l h1 h2 => ?_
    have h3 := hl l h1 h2
    rw [List.any_eq_false] at h
    have := h l h1
    rw [h3] at this
    exact absurd (by decide) this
  have hon : dnsDuring true true true lines = switchDns true lines := by
    unfold dnsDuring
    rw [optimizeDns_on]
    cases h : lines.any (inText "127.0.0.53".toList) with
    | true => rfl
    | false => exact (hnone h).symm
  refine ⟨?_, fun h => by rw [h]; exact hoff, fun h => by rw [h, hon]; exact hlines⟩
  have hafter : dnsAfter true true true enable e lines = optimizeDns true true false (dnsDuring true true enable lines) := by
    cases e <;> first | rfl | exact absurd rfl he
  rw [hafter]
  cases enable with
  | false =>
    show optimizeDns true true false (optimizeDns true true false lines) = _
    rw [hoff, hoff]
  | true =>
    rw [hon, optimizeDns_off]
    cases h' : (switchDns true lines).any (inText "127.0.0.1".toList) with
    | true =>
      show switchDns false (switchDns true lines) = lines
      rw [switchDns_twice, hsame]
    | false =>
      show switchDns true lines = lines
      refine switchDns_eq true lines fun l h1 h2 => ?_
      rw [List.any_eq_false] at h'
      have hm : dnsCacheLine ∈ switchDns true lines := by
        unfold switchDns
        exact List.mem_map.2 ⟨l, h1, by rw [if_pos ((inText_iff _ _).2 h2)]; rfl⟩
      exact absurd (by decide) (h' _ hm)

/-- Outside a Studio nothing is changed. -/
theorem c74_outside (works works' enable : Bool) (e : BodyEnd) (lines : List PathStr) : dnsDuring false works enable lines = lines ∧ dnsAfter false works works' enable e lines = lines := by
  refine ⟨rfl, ?_⟩
  cases e <;> rfl

/-- Lines that do not name a local name server stay, and their places, in all cases. -/
theorem c74_other_lines (inStudio works works' enable : Bool) (e : BodyEnd) (lines : List PathStr) :
    (dnsAfter inStudio works works' enable e lines).length = lines.length ∧
    ∀ (i : Nat) l, lines[i]? = some l → ¬ LocalServer l → (dnsAfter inStudio works works' enable e lines)[i]? = some l := by
  have hone : ∀ w en (ls : List PathStr), (optimizeDns inStudio w en ls).length = ls.length ∧ ∀ (i : Nat) l, ls[i]? = some l → ¬ LocalServer l → (optimizeDns inStudio w en ls)[i]? = some l := by
    intro w en ls
    unfold optimizeDns
    split
    · exact ⟨rfl, fun _ _ h _ => h⟩
    · split
      · refine ⟨by rw [switchDns, List.length_map], fun i l h hn => ?_⟩
        rw [switchDns, List.getElem?_map, h]
        simp only [Option.map_some]
        rw [if_neg]
        intro ht
        exact hn ((inText_iff _ _).1 ht)
      · exact ⟨rfl, fun _ _ h _ => h⟩
  obtain ⟨h1, h2⟩ := hone works enable lines
  obtain ⟨h3, h4⟩ := hone works' false (optimizeDns inStudio works enable lines)
  cases e with
  | interrupted => exact ⟨h1, h2⟩
  | returns => exact ⟨h3.trans h1, fun i l h hn => h4 i l (h2 i l h hn) hn⟩
  | raises => exact ⟨h3.trans h1, fun i l h hn => h4 i l (h2 i l h hn) hn⟩

/-- **Where the code fails.** Even if `optimize_dns` is not asked for, a name server of the user whose address starts like `127.0.0.1`, such as the local cache itself or `127.0.0.11` in a container, is replaced for good. -/
theorem c74_own_server (e : BodyEnd) (works' : Bool) (lines : List PathStr) (i : Nat) (rest : PathStr) (h : lines[i]? = some ("nameserver 127.0.0.1".toList ++ rest)) :
    (dnsAfter true true works' false e lines)[i]? = some "nameserver 127.0.0.53\n".toList := by
  have h1 : inText "127.0.0.1".toList ("nameserver 127.0.0.1".toList ++ rest) = true := (inText_iff _ _).2 ⟨"nameserver ".toList, rest, by simp⟩
  have h2 : inText "nameserver 127".toList ("nameserver 127.0.0.1".toList ++ rest) = true := (inText_iff _ _).2 ⟨[], ".0.0.1".toList ++ rest, by simp⟩
  have hd : (dnsDuring true true false lines)[i]? = some "nameserver 127.0.0.53\n".toList := by
    unfold dnsDuring
    have : lines.any (inText "127.0.0.1".toList) = true := List.any_eq_true.2 ⟨_, List.mem_of_getElem? h, h1⟩
    rw [optimizeDns_off, this]
    show (switchDns false lines)[i]? = _
    rw [switchDns, List.getElem?_map, h]
    simp only [Option.map_some]
    rw [if_pos h2]; rfl
  have hl : ∀ ls : List PathStr, ls[i]? = some "nameserver 127.0.0.53\n".toList → (optimizeDns true works' false ls)[i]? = some "nameserver 127.0.0.53\n".toList := by
    intro ls hls
    rw [optimizeDns_off]
    split
    · rw [switchDns, List.getElem?_map, hls]
      decide
    · exact hls
  cases e with
  | interrupted => exact hd
  | returns => exact hl _ hd
  | raises => exact hl _ hd

/-- If the call is interrupted, or the command at the end does not work, the machine keeps the name server of the call. -/
theorem c74_interrupted (lines : List PathStr) (i : Nat) (h : lines[i]? = some "nameserver 127.0.0.53\n".toList) :
    (dnsAfter true true true true .interrupted lines)[i]? = some "nameserver 127.0.0.1\n".toList ∧
    ∀ e, (dnsAfter true true false true e lines)[i]? = some "nameserver 127.0.0.1\n".toList := by
  have hd : (dnsDuring true true true lines)[i]? = some "nameserver 127.0.0.1\n".toList := by
    unfold dnsDuring
    have : lines.any (inText "127.0.0.53".toList) = true := List.any_eq_true.2 ⟨_, List.mem_of_getElem? h, by decide⟩
    rw [optimizeDns_on, this]
    show (switchDns true lines)[i]? = _
    rw [switchDns, List.getElem?_map, h]
    decide
  refine ⟨hd, fun e => ?_⟩
  cases e with
  | interrupted => exact hd
  | returns =>
    show (optimizeDns true false false _)[i]? = _
    rw [optimizeDns_off, Bool.and_false]
    exact hd
  | raises =>
    show (optimizeDns true false false _)[i]? = _
    rw [optimizeDns_off, Bool.and_false]
    exact hd

/-! Concrete cases. -/

/-- The file of a machine with systemd-resolved. -/
def resolvConf : List PathStr := ["# managed by systemd\n".toList, "nameserver 127.0.0.53\n".toList, "search lan\n".toList]

example : dnsAfter true true true true .raises resolvConf = resolvConf ∧ dnsDuring true true true resolvConf = ["# managed by systemd\n".toList, "nameserver 127.0.0.1\n".toList, "search lan\n".toList] := by decide

example : dnsAfter true true true true .returns resolvConf = resolvConf := by
  refine (c74_restored_partial resolvConf (fun l hl hs => ?_) (fun l hl hs => ?_) true .returns (by decide)).1
  · have h : ∀ l ∈ resolvConf, inText "nameserver 127".toList l = true → l = "nameserver 127.0.0.53\n".toList := by decide
    exact h l hl ((inText_iff _ _).2 hs)
  · have h : ∀ l ∈ resolvConf, inText "127.0.0.1".toList l = false := by decide
    have := h l hl
    rw [(inText_iff _ _).2 hs] at this
    cases this

example : dnsAfter true true true false .returns ["nameserver 127.0.0.11\n".toList] = ["nameserver 127.0.0.53\n".toList] := by decide

end LitData.Props
