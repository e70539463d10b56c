import Verif.Proofs.Hosts
import Verif.Model.Routes
/-
C116: the server connects to the hosts of the Aerospike cluster that the configuration names.
-/
namespace RankDB.Props
open Spec Hosts Validate
open Routes (w)

/-- Hosts that are written as documented are the hosts to connect to, all of them in their order. The full property has
also that other texts are refused; `C116_never_refused` and the theorems after it show that they are not. -/
theorem C116_hosts_partial (text : Str) (hosts : List (Str × Nat)) (h : NamesAll text hosts) :
    clusterHosts text = some (hosts.map fun x => (x.1, (x.2 : Int))) := by
  have hp : parseHosts text 3000 = hosts.map fun x => (x.1, (x.2 : Int)) := by
    unfold parseHosts
    induction h with
    | one hn =>
      obtain ⟨h1, h2⟩ := names_parse hn
      rw [split_last h2, List.map_cons, h1]
      rfl
    | more hn _ ih =>
      obtain ⟨h1, h2⟩ := names_parse hn
      have e : ','.toUInt8 = 44 := rfl
      rw [e, split_cons h2, List.map_cons, ih, h1]
      rfl
  unfold clusterHosts
  rw [hp, if_neg]
  cases h <;> simp

/-- Two hosts, one with a port and blanks. -/
example : NamesAll (w " as1 :3100,as2") [(w "as1", 3100), (w "as2", 3000)] ∧
    clusterHosts (w " as1 :3100,as2") = some [(w "as1", 3100), (w "as2", 3000)] := by
  have h : NamesAll (w " as1 :3100,as2") [(w "as1", 3100), (w "as2", 3000)] :=
    .more (raw := w " as1 :3100") (rest := w "as2")
      (.port (raw := w " as1 ") (text := w "3100") (by unfold Apart; decide +kernel) ((written_iff ..).2 (by decide +kernel)) (by decide)
        ((decimal_iff ..).2 (by decide +kernel)) (by decide) (by decide))
      (.one (.plain (by unfold Apart; decide +kernel) ((written_iff ..).2 (by decide +kernel)) (by decide)))
  exact ⟨h, C116_hosts_partial _ _ h⟩

/-- Two ways to read a text do not exist. -/
theorem C116_one_meaning (text : Str) (hosts hosts' : List (Str × Nat)) (h : NamesAll text hosts) (h' : NamesAll text hosts') :
    hosts = hosts' := by
  have := (C116_hosts_partial text hosts h).symm.trans (C116_hosts_partial text hosts' h')
  have := Option.some.inj this
  have inj : ∀ l l' : List (Str × Nat), l.map (fun x => (x.1, (x.2 : Int))) = l'.map (fun x => (x.1, (x.2 : Int))) → l = l' := by
    intro l
    induction l with
    | nil => intro l' h; cases l' <;> simp_all
    | cons a l ih =>
      intro l' h
      cases l' with
      | nil => simp at h
      | cons b l' =>
        simp only [List.map_cons, List.cons.injEq, Prod.mk.injEq, Int.ofNat_inj] at h
        rw [ih l' h.2, Prod.ext h.1.1 h.1.2]
  exact inj _ _ this

/-- No text is refused, not even the empty one: the error "no hosts specified" does not occur, and a configuration without
hosts asks to connect to a host without a name. -/
theorem C116_never_refused : (∀ text, clusterHosts text ≠ none) ∧ clusterHosts [] = some [([], 3000)] ∧
    ¬ ∃ hosts, NamesAll [] hosts := by
  refine ⟨fun text => ?_, by decide +kernel, ?_⟩
  · unfold clusterHosts parseHosts
    rw [if_neg]
    · simp
    · simpa using split_ne_nil 44 text
  · rintro ⟨hosts, h⟩
    have := C116_hosts_partial _ _ h
    rw [show clusterHosts [] = some [([], 3000)] by decide +kernel] at this
    generalize he : ([] : Str) = t at h
    cases h with
    | one hn =>
      cases hn with
      | plain h1 h2 h3 => simp at this; exact h3 this
      | port => simp at he
    | more => simp at he

/-- No host has a colon in its name, so there is no way to name a host by an address of IPv6. -/
theorem C116_no_colon (text : Str) (hosts : List (Str × Int)) (h : clusterHosts text = some hosts) : ∀ x ∈ hosts, 58 ∉ x.1 := by
  have hp : parseHosts text 3000 = hosts := by
    unfold clusterHosts at h
    split at h
    · nomatch h
    · exact Option.some.inj h
  intro x hx
  rw [← hp] at hx
  obtain ⟨e, -, rfl⟩ := List.mem_map.1 hx
  have trim : ∀ s : Str, 58 ∉ s → 58 ∉ trimBytes s := by
    intro s hs hc
    unfold trimBytes at hc
    rw [List.mem_reverse] at hc
    exact hs ((List.dropWhile_sublist _).subset (List.mem_reverse.1 ((List.dropWhile_sublist _).subset hc)))
  unfold parseHost
  split
  · rename_i name port rest hs
    exact trim _ (split_mem (s := e) (by rw [hs]; exact List.mem_cons_self ..))
  · rename_i name hs
    exact trim _ (split_mem (s := e) (by rw [hs]; exact List.mem_cons_self ..))
  · simp

/-- An address of IPv6 with a port is read as the host `[`. -/
example : clusterHosts (w "[::1]:3100") = some [(w "[", 3000)] ∧ clusterHosts (w "[2001:db8::1]:3100") = some [(w "[2001", 3000)] := by
  constructor <;> decide +kernel

/-- A port with a byte after it that is not a digit, for example a blank, is replaced by 3000 without an error. -/
theorem C116_port_ignored (raw name digits rest : Str) (port : Nat) (c : UInt8) (h : Apart raw) (hn : Spelled raw name)
    (hd : Decimal digits port) (hv : port < 2 ^ 64) (hc : c < '0'.toUInt8 ∨ '9'.toUInt8 < c) (hr : Apart (c :: rest)) :
    clusterHosts (raw ++ ':'.toUInt8 :: (digits ++ c :: rest)) = some [(name, 3000)] := by
  have e : ':'.toUInt8 = 58 := rfl
  have hdig : digit c = false := by
    rw [digit, decide_eq_false_iff_not]
    intro hh
    have h1 : '0'.toUInt8.toNat = 48 := rfl
    have h2 : '9'.toUInt8.toNat = 57 := rfl
    have h3 : (48 : UInt8).toNat = 48 := rfl
    have h4 : (57 : UInt8).toNat = 57 := rfl
    simp only [UInt8.le_iff_toNat_le, UInt8.lt_iff_toNat_lt] at hh hc
    omega
  have ha : Apart (digits ++ c :: rest) := by
    intro x hx
    rcases List.mem_append.1 hx with hx | hx
    · exact decimal_apart hd x hx
    · exact hr x hx
  rw [e, clusterHosts, parseHosts, split_last (port_comma h ha), List.map_cons, parseHost_port _ h hn ha,
    atoiValue_junk hd hv hdig]
  rfl

/-- A blank before the comma. -/
example : clusterHosts (w "as1:3100 ,as2:3200") = some [(w "as1", 3000), (w "as2", 3200)] ∧
    clusterHosts (w "as1: 3100") = some [(w "as1", 3000)] := by
  constructor <;> decide +kernel

/-- Numbers that are no ports are taken as ports. -/
theorem C116_large_port (raw name digits : Str) (port : Nat) (h : Apart raw) (hn : Spelled raw name)
    (hd : Decimal digits port) (h1 : 65535 < port) (h2 : port < 2 ^ 63) :
    clusterHosts (raw ++ ':'.toUInt8 :: digits) = some [(name, (port : Int))] := by
  have e : ':'.toUInt8 = 58 := rfl
  have ha := decimal_apart hd
  rw [e, clusterHosts, parseHosts, split_last (port_comma h ha), List.map_cons, parseHost_port _ h hn ha,
    atoiValue_decimal hd h2, if_pos (show (0 : Int) < (port : Int) by omega)]
  rfl

example : clusterHosts (w "as1:70000") = some [(w "as1", 70000)] ∧
    clusterHosts (w "as1:99999999999999999999") = some [(w "as1", 9223372036854775807)] ∧
    clusterHosts (w "as1:-5,as2:0,") = some [(w "as1", 3000), (w "as2", 3000), ([], 3000)] := by
  refine ⟨?_, ?_, ?_⟩ <;> decide +kernel

end RankDB.Props
