import Verif.Props.Catalogue
import Verif.Spec.Paging
/-
Property C90: paging through the catalogue and selecting lists while lists are added and deleted.
Specification: `Verif/Spec/Paging.lean`.
-/
namespace RankDB
namespace Catalogue
open Spec

theorem filterMap_fetchAt {found : Str → List Entry} {n : Nat} {s : List Str} (hl : s.length ≤ n) :
    fetchAt found n s = s.filterMap fun id => byID (found id) id := by
  unfold fetchAt
  exact List.take_of_length_le (Nat.le_trans (List.length_filterMap_le _ _) hl)

/-- The page is the page of what was visited, with the lists looked up again. -/
theorem pageDuring_eq {seen : List Entry} (hnd : DistinctLists seen) (found : Str → List Entry) (start : Str) {n : Nat} (hn : 1 ≤ n) :
    pageDuring seen found start n =
      (((sortedIDsAfter seen start n).1.map (·.id)).filterMap fun id => byID (found id) id, (sortedIDsAfter seen start n).2) := by
  have key : ∀ m : Nat, 2 ≤ m → ∀ x ∈ sortIDs ((seen.map (·.id)).foldl (stepAfter start m) {}).s, x ∈ seen.map (·.id) := by
    intro m hm x hx
    obtain ⟨a, b, hg⟩ := after_groups hnd start hm
    exact hg.1.mem_iff.1 (by simp [hx])
  have len : ∀ m : Nat, 2 ≤ m → (sortIDs ((seen.map (·.id)).foldl (stepAfter start m) {}).s).length ≤ m := by
    intro m hm
    obtain ⟨a, b, hg⟩ := after_groups hnd start hm
    exact hg.2.2.2.2.2.2.1
  unfold pageDuring sortedIDsAfter
  have hn0 : ¬ (n : Int) ≤ 0 := by omega
  simp only [if_neg hn0]
  have h2 : 2 ≤ (if (n : Int) = 1 then 2 else (n : Int).toNat) := by split <;> omega
  generalize (if (n : Int) = 1 then 2 else (n : Int).toNat) = m at *
  have hk := key m h2
  have hl := len m h2
  generalize (seen.map (·.id)).foldl (stepAfter start m) {} = st at *
  by_cases hc : (n : Int) = 1 ∧ (sortIDs st.s).length > 1
  · have ht : ((sortIDs st.s).take 1).length ≤ m := Nat.le_trans (List.length_take_le _ _) (by omega)
    simp only [if_pos hc]
    rw [filterMap_fetchAt ht, (fetch_spec hnd (fun x hx => hk x (List.mem_of_mem_take hx)) ht).1]
  · simp only [if_neg hc]
    rw [filterMap_fetchAt hl, (fetch_spec hnd hk hl).1]

theorem mem_filterMap_byID {found : Str → List Entry} {s : List Str} {e : Entry}
    (h : e ∈ s.filterMap fun id => byID (found id) id) : e.id ∈ s ∧ e ∈ found e.id := by
  obtain ⟨id, hid, he⟩ := List.mem_filterMap.1 h
  obtain ⟨h1, rfl⟩ := byID_some he
  exact ⟨hid, h1⟩

theorem filterMap_ids {found : Str → List Entry} : ∀ s : List Str,
    ((s.filterMap fun id => byID (found id) id).map (·.id)).Sublist s
  | [] => by simp
  | id :: s => by
    rw [List.filterMap_cons]
    split
    · exact (filterMap_ids s).cons id
    · rename_i e he
      rw [List.map_cons, (byID_some he).2]
      exact (filterMap_ids s).cons_cons id

theorem exists_filterMap {found : Str → List Entry} {s : List Str} {id : Str} (hid : id ∈ s) (h : Has (found id) id) :
    Has (s.filterMap fun id => byID (found id) id) id := by
  obtain ⟨e, he, hei⟩ := h
  cases hb : byID (found id) id with
  | none =>
    unfold byID at hb
    have := List.find?_eq_none.1 hb e he
    simp [hei] at this
  | some x => exact ⟨x, List.mem_filterMap.2 ⟨id, hid, hb⟩, (byID_some hb).2⟩

/-- What a page has. -/
theorem pageDuring_spec {c : Call} (hc : c.Ok) (start : Str) {n : Nat} (hn : 1 ≤ n) :
    let p := pageDuring c.seen c.found start n
    SortedByID p.1 ∧ p.1.length ≤ n ∧ (∀ e ∈ p.1, start < e.id ∧ ∃ cat ∈ c.cats, e ∈ cat) ∧
    ∀ id, start < id → (∀ cat ∈ c.cats, Has cat id) →
      Has p.1 id ∨ p.2.after ≠ 0 ∧ ∀ e ∈ p.1, e.id < id := by
  intro p
  have hp : p = _ := pageDuring_eq hc.once c.found start hn
  obtain ⟨A, B, h1, h2, h3, h4, h5, h6, h7, h8⟩ := Props.C43_after c.seen hc.once start n hn
  generalize sortedIDsAfter c.seen start n = r at *
  rw [sorted_map, List.map_append, List.map_append] at h2
  have hsub := filterMap_ids (found := c.found) (r.1.map (·.id))
  refine ⟨?_, ?_, ?_, ?_⟩
  · rw [sorted_map, hp]
    exact (h2.sublist ((List.sublist_append_right _ _).trans (List.sublist_append_left _ _))).sublist hsub
  · rw [hp]
    have := hsub.length_le
    rw [List.length_map, List.length_map] at this
    exact Nat.le_trans this h7
  · intro e he
    rw [hp] at he
    obtain ⟨h9, h10⟩ := mem_filterMap_byID he
    obtain ⟨x, hx, hxe⟩ := List.mem_map.1 h9
    exact ⟨hxe ▸ h6 x (by simp [hx]), _, hc.during _, h10⟩
  · intro id hid hall
    obtain ⟨e, he, hei⟩ := hc.all id hall
    have hmem := h1.mem_iff.2 he
    simp only [List.mem_append] at hmem
    rcases hmem with (hA | hP) | hB
    · exact absurd (hei ▸ hid) (h5 e hA)
    · left
      rw [hp]
      exact exists_filterMap (hei ▸ List.mem_map_of_mem hP) (hall _ (hc.during id))
    · right
      refine ⟨?_, ?_⟩
      · rw [hp]
        simp only []
        rw [h4]
        intro h0
        rw [List.length_eq_zero_iff.1 h0] at hB
        cases hB
      · intro x hx
        rw [hp] at hx
        have hx' := (mem_filterMap_byID hx).1
        have := (List.pairwise_append.1 h2).2.2 x.id (List.mem_append_right _ hx') id (hei ▸ List.mem_map_of_mem hB)
        exact this

end Catalogue

namespace Props
open Spec Catalogue

/-! ### C90 The catalogue while lists come and go -/

/-- A client that pages through the catalogue to the end sees the lists in order, none of them twice, only lists that
were there at some time, and every list that was there all the time, however lists are added, replaced and deleted
meanwhile. -/
theorem C90_browse_partial (n : Nat) (hn : 1 ≤ n) (start : Str) (calls : List Call) (hc : ∀ c ∈ calls, c.Ok) (r : List Entry)
    (h : browse n start calls = some r) :
    SortedByID r ∧ (∀ e ∈ r, start < e.id ∧ ∃ c ∈ calls, ∃ cat ∈ c.cats, e ∈ cat) ∧
    ∀ id, start < id → (∀ c ∈ calls, ∀ cat ∈ c.cats, Has cat id) → ∃ e ∈ r, e.id = id := by
  induction calls generalizing start r with
  | nil => cases h
  | cons c cs ih =>
    obtain ⟨h1, -, h2, h3⟩ := pageDuring_spec (hc c (by simp)) start hn
    unfold browse at h
    dsimp only at h
    generalize pageDuring c.seen c.found start n = p at *
    split at h
    · rename_i h0
      cases h
      refine ⟨h1, fun e he => ⟨(h2 e he).1, c, by simp, (h2 e he).2⟩, fun id hid hall => ?_⟩
      rcases h3 id hid fun cat hcat => hall c (by simp) cat hcat with h4 | ⟨h4, -⟩
      · exact h4
      · exact absurd h0 h4
    · split at h
      · cases h
      · rename_i e hlast
        rw [Option.map_eq_some_iff] at h
        obtain ⟨r', hb, rfl⟩ := h
        have he : e ∈ p.1 := List.mem_of_getLast? hlast
        obtain ⟨i1, i2, i3⟩ := ih e.id (fun c' h' => hc c' (by simp [h'])) r' hb
        have hlt : ∀ x ∈ p.1, x = e ∨ x.id < e.id := by
          intro x hx
          obtain ⟨ys, hys⟩ := List.getLast?_eq_some_iff.1 hlast
          rw [hys] at hx h1
          rcases List.mem_append.1 hx with hx | hx
          · exact .inr ((List.pairwise_append.1 h1).2.2 x hx e (by simp))
          · exact .inl (by simpa using hx)
        refine ⟨?_, ?_, ?_⟩
        · refine List.pairwise_append.2 ⟨h1, i1, fun a ha b hbr => ?_⟩
          rcases hlt a ha with rfl | h'
          · exact (i2 b hbr).1
          · exact slt_trans h' (i2 b hbr).1
        · intro x hx
          rcases List.mem_append.1 hx with hx | hx
          · exact ⟨(h2 x hx).1, c, by simp, (h2 x hx).2⟩
          · obtain ⟨a, c', hc', b⟩ := i2 x hx
            exact ⟨slt_trans (h2 e he).1 a, c', by simp [hc'], b⟩
        · intro id hid hall
          rcases h3 id hid fun cat hcat => hall c (by simp) cat hcat with ⟨x, hx, hxi⟩ | ⟨-, h4⟩
          · exact ⟨x, by simp [hx], hxi⟩
          · obtain ⟨x, hx, hxi⟩ := i3 id (h4 e he) fun c' hc' => hall c' (by simp [hc'])
            exact ⟨x, by simp [hx], hxi⟩

/-- A catalogue that does not change, visited in the order of iteration `seen`. -/
def still (seen : List Entry) : Call := ⟨[seen], seen, fun _ => seen⟩

theorem still_ok {cat : List Entry} (h : DistinctLists cat) : (still cat).Ok :=
  ⟨fun c hc => by cases List.mem_singleton.1 hc; exact h, h, fun e he => ⟨cat, by simp [still], he⟩,
    fun id hall => hall cat (by simp [still]), fun _ => by simp [still]⟩

/-- On a catalogue that does not change the pages are those of C43. -/
theorem C90_still (cat : List Entry) (h : DistinctLists cat) (start : Str) (n : Nat) (hn : 1 ≤ n) :
    pageDuring cat (fun _ => cat) start n = sortedIDsAfter cat start n := by
  rw [pageDuring_eq h _ start hn]
  obtain ⟨A, B, h1, h2, -⟩ := C43_after cat h start n hn
  generalize sortedIDsAfter cat start n = r at *
  apply Prod.ext
  · simp only []
    have hmem : ∀ e ∈ r.1, e ∈ cat := fun e he => h1.mem_iff.1 (by simp [he])
    generalize r.1 = l at *
    clear h1 h2
    induction l with
    | nil => rfl
    | cons e l ih =>
      rw [List.map_cons, List.filterMap_cons, byID_of_mem h (hmem e (by simp))]
      simp only []
      rw [ih fun x hx => hmem x (by simp [hx])]
  · rfl

/-- Paging comes to the end: if the catalogue does not change, as many pages as are needed for all lists are enough,
whatever the order of iteration is each time. -/
theorem C90_ends (n : Nat) (hn : 1 ≤ n) (start : Str) (cat : List Entry) (orders : List (List Entry)) (hne : orders ≠ [])
    (hd : DistinctLists cat) (ho : ∀ o ∈ orders, o.Perm cat)
    (hl : (cat.filter fun e => decide (start < e.id)).length ≤ n * orders.length) :
    ∃ r, browse n start (orders.map still) = some r ∧ SortedByID r ∧ r.Perm (cat.filter fun e => decide (start < e.id)) := by
  suffices hs : (browse n start (orders.map still)).isSome by
    obtain ⟨r, hr⟩ := Option.isSome_iff_exists.1 hs
    have hdo : ∀ o ∈ orders, DistinctLists o := fun o h => ((ho o h).map (fun e : Entry => e.id)).nodup_iff.2 hd
    obtain ⟨h1, h2, h3⟩ := C90_browse_partial n hn start (orders.map still)
      (fun c hc => by obtain ⟨o, h, rfl⟩ := List.mem_map.1 hc; exact still_ok (hdo o h)) r hr
    refine ⟨r, hr, h1, ?_⟩
    have hcat : ∀ e ∈ r, e ∈ cat := by
      intro e he
      obtain ⟨-, c, hc, x, hx, hex⟩ := h2 e he
      obtain ⟨o, ho', rfl⟩ := List.mem_map.1 hc
      simp only [still, List.mem_singleton] at hx
      subst hx
      exact (ho _ ho').mem_iff.1 hex
    have n1 : r.Nodup := h1.imp fun {a b} h (h' : a = b) => slt_irrefl _ (h' ▸ h)
    have n2 : (cat.filter fun e => decide (start < e.id)).Nodup :=
      List.Pairwise.filter _ (List.Pairwise.of_map (·.id) (fun a b h h' => h (by rw [h'])) hd)
    rw [List.perm_ext_iff_of_nodup n1 n2]
    intro e
    rw [List.mem_filter, decide_eq_true_eq]
    refine ⟨fun he => ⟨hcat e he, (h2 e he).1⟩, fun ⟨he, hlt⟩ => ?_⟩
    obtain ⟨x, hx, hxi⟩ := h3 e.id hlt fun c hc x hx => by
      obtain ⟨o, ho', rfl⟩ := List.mem_map.1 hc
      simp only [still, List.mem_singleton] at hx
      subst hx
      exact ⟨e, (ho _ ho').mem_iff.2 he, rfl⟩
    have a := byID_of_mem hd (hcat x hx)
    have b := byID_of_mem hd he
    rw [hxi, b] at a
    cases a
    exact hx
  induction orders generalizing start with
  | nil => exact absurd rfl hne
  | cons o os ih =>
    have hdo : DistinctLists o := ((ho o (by simp)).map (fun e : Entry => e.id)).nodup_iff.2 hd
    rw [List.map_cons]
    unfold browse
    have hst : pageDuring (still o).seen (still o).found start n = sortedIDsAfter o start n := C90_still o hdo start n hn
    rw [hst]
    obtain ⟨A, B, h1, h2, h3, h4, h5, h6, h7, h8⟩ := C43_after o hdo start n hn
    generalize sortedIDsAfter o start n = p at *
    dsimp only
    split
    · rfl
    · rename_i hafter
      have hB : B ≠ [] := fun h0 => hafter (by rw [h4, h0]; rfl)
      have hlen := h8 hB
      have hpn : p.1 ≠ [] := fun h0 => by rw [h0] at hlen; simp at hlen; omega
      rw [List.getLast?_eq_some_getLast hpn]
      simp only [Option.isSome_map]
      have hlast := List.getLast_mem hpn
      have hsplit : p.1 = p.1.dropLast ++ [p.1.getLast hpn] := (List.dropLast_concat_getLast hpn).symm
      generalize p.1.getLast hpn = e at hlast hsplit
      have hsorted : ∀ x ∈ A ++ p.1, ¬ e.id < x.id := by
        intro x hx
        rw [hsplit, ← List.append_assoc] at hx h2
        rcases List.mem_append.1 hx with hx | hx
        · exact fun h' => slt_irrefl _ (slt_trans h' ((List.pairwise_append.1 (List.pairwise_append.1 h2).1).2.2 x hx e (by simp)))
        · rw [List.mem_singleton.1 hx]; exact slt_irrefl _
      have c1 : (cat.filter fun x => decide (e.id < x.id)).length ≤ B.length := by
        rw [((h1.trans (ho o (by simp))).filter _).length_eq.symm, List.filter_append,
          List.filter_eq_nil_iff.2 (fun x hx => by simpa using hsorted x hx)]
        exact List.length_filter_le _ _
      have c2 : (cat.filter fun x => decide (start < x.id)).length = n + B.length := by
        rw [((h1.trans (ho o (by simp))).filter _).length_eq.symm, List.append_assoc, List.filter_append,
          List.filter_eq_nil_iff.2 (fun x hx => by simpa using h5 x hx),
          List.filter_eq_self.2 (fun x hx => by simpa using h6 x hx), List.nil_append, List.length_append, hlen]
      have hB' := List.length_pos_iff.2 hB
      rw [c2, List.length_cons, Nat.mul_succ] at hl
      refine ih e.id ?_ (fun o' h' => ho o' (by simp [h'])) (by omega)
      rintro rfl
      simp only [List.length_nil, Nat.mul_zero] at hl
      omega

/-- Three of five lists are there throughout; "c" is deleted after the first page and "a" is added too late. -/
def exCalls : List Call :=
  let a : Entry := ⟨[97], [], none⟩
  let b : Entry := ⟨[98], [], none⟩
  let c : Entry := ⟨[99], [], none⟩
  let d : Entry := ⟨[100], [], none⟩
  let e : Entry := ⟨[101], [], none⟩
  [⟨[[e, c, b, d]], [e, c, b, d], fun _ => [e, c, b, d]⟩,
   ⟨[[e, c, b, d], [e, b, d], [a, e, b, d]], [d, e, b], fun _ => [a, e, b, d]⟩]

example : (∀ c ∈ exCalls, c.Ok) ∧ (browse 2 [] exCalls).map (·.map (·.id)) = some [[98], [99], [100], [101]] ∧
    ∀ c ∈ exCalls, ∀ cat ∈ c.cats, Has cat [98] ∧ Has cat [100] ∧ Has cat [101] := by
  refine ⟨?_, by decide +kernel⟩
  intro c hc
  simp only [exCalls, List.mem_cons, List.not_mem_nil, or_false] at hc
  rcases hc with rfl | rfl
  · exact ⟨by decide +kernel, by decide +kernel, by decide +kernel, fun id h => h _ (by simp), by simp⟩
  · refine ⟨by decide +kernel, by decide +kernel, by decide +kernel, fun id h => ?_, by simp⟩
    obtain ⟨x, hx, hid⟩ := h _ (List.mem_cons_of_mem _ (List.mem_cons_self ..))
    exact ⟨x, by simp only [List.mem_cons, List.not_mem_nil, or_false] at hx ⊢; rcases hx with h | h | h <;> simp [h], hid⟩

/-- Four lists. -/
def exCat : List Entry := [⟨[101], [], none⟩, ⟨[99], [], none⟩, ⟨[98], [], none⟩, ⟨[100], [], none⟩]

/-- Two pages, with different orders of iteration. -/
example : DistinctLists exCat ∧ [exCat, exCat.reverse] ≠ [] ∧ (∀ o ∈ [exCat, exCat.reverse], o.Perm exCat) ∧
    (exCat.filter fun e => decide ([] < e.id)).length ≤ 2 * [exCat, exCat.reverse].length ∧
    (browse 2 [] ([exCat, exCat.reverse].map still)).map (·.map (·.id)) = some [[98], [99], [100], [101]] := by
  refine ⟨by decide +kernel, by simp, ?_, by decide +kernel, by decide +kernel⟩
  intro o ho
  simp only [List.mem_cons, List.not_mem_nil, or_false] at ho
  rcases ho with rfl | rfl
  · exact List.Perm.refl _
  · exact List.reverse_perm _

/-! #### Ending earlier -/

/-- A client must not stop at a page that is not full: a page has fewer lists than asked for although further lists
follow, if a list is deleted after it was visited. It can even be empty, and then the client has no ID to go on
from. -/
theorem C90_short_page :
    ¬ ∀ (c : Call) (start : Str) (n : Nat), c.Ok → 1 ≤ n →
      let p := pageDuring c.seen c.found start n
      p.2.after ≠ 0 → p.1 ≠ [] := by
  intro h
  have := h ⟨[[⟨[97], [], none⟩, ⟨[98], [], none⟩], [⟨[98], [], none⟩]], [⟨[97], [], none⟩, ⟨[98], [], none⟩], fun _ => [⟨[98], [], none⟩]⟩
    [] 1 ⟨by decide +kernel, by decide +kernel, by decide +kernel, fun id h => ?_, by simp⟩ (by omega) (by decide +kernel)
  · revert this
    decide +kernel
  · exact h _ (List.mem_cons_self ..)

/-! #### Requests for many lists -/

/-- A request for many lists reaches every list that is there throughout and matches, each list at most once, and only
lists that were there. -/
theorem C90_selected (c : Call) (hc : c.Ok) (q : List (Str × Str)) (sets : List Str) :
    let r := selectDuring c.seen c.found q sets
    (r.map (·.id)).Nodup ∧ (∀ e ∈ r, ∃ cat ∈ c.cats, e ∈ cat) ∧
    (∀ e ∈ r, ∃ x, x.id = e.id ∧ (∃ cat ∈ c.cats, x ∈ cat) ∧ selects q sets x = true) ∧
    ∀ e, (∀ cat ∈ c.cats, e ∈ cat) → selects q sets e = true → (q ≠ [] ∨ sets ≠ []) → e ∈ r := by
  intro r
  have hsub := filterMap_ids (found := c.found) (matchAll c.seen q sets)
  have hm : ∀ id, id ∈ matchAll c.seen q sets ↔ (q ≠ [] ∨ sets ≠ []) ∧ ∃ x ∈ c.seen, selects q sets x = true ∧ x.id = id := by
    intro id
    unfold matchAll
    split
    · rename_i h0
      simp only [Bool.and_eq_true, decide_eq_true_eq, List.length_eq_zero_iff] at h0
      simp [h0.1, h0.2]
    · rename_i h0
      simp only [Bool.and_eq_true, decide_eq_true_eq, List.length_eq_zero_iff] at h0
      simp only [List.mem_map, List.mem_filter]
      constructor
      · rintro ⟨x, ⟨a, b⟩, rfl⟩
        refine ⟨?_, x, a, b, rfl⟩
        by_cases hq : q = []
        · exact .inr fun h' => h0 ⟨hq, h'⟩
        · exact .inl hq
      · rintro ⟨-, x, a, b, rfl⟩
        exact ⟨x, ⟨a, b⟩, rfl⟩
  have hnd : (matchAll c.seen q sets).Nodup := by
    unfold matchAll
    split
    · exact List.nodup_nil
    · exact hc.once.sublist (List.Sublist.map _ List.filter_sublist)
  refine ⟨hnd.sublist hsub, fun e he => ⟨_, hc.during e.id, (mem_filterMap_byID he).2⟩, fun e he => ?_, fun e hall hs hq => ?_⟩
  · obtain ⟨-, x, hx, hsx, hid⟩ := (hm e.id).1 (mem_filterMap_byID he).1
    exact ⟨x, hid, hc.real x hx, hsx⟩
  · have hx : e ∈ c.seen := by
      obtain ⟨x, hx, hid⟩ := hc.all e.id fun cat hcat => ⟨e, hall cat hcat, rfl⟩
      obtain ⟨cat, hcat, hxc⟩ := hc.real x hx
      have a := byID_of_mem (hc.distinct cat hcat) hxc
      rw [hid, byID_of_mem (hc.distinct cat hcat) (hall cat hcat)] at a
      cases a
      exact hx
    refine List.mem_filterMap.2 ⟨e.id, (hm e.id).2 ⟨hq, e, hx, hs, rfl⟩, ?_⟩
    exact byID_of_mem (hc.distinct _ (hc.during e.id)) (hall _ (hc.during e.id))

/-- A request for the lists of set 1, while the list "b" of another set is deleted. -/
example : let c : Call := ⟨[[⟨[97], [1], none⟩, ⟨[98], [2], none⟩], [⟨[97], [1], none⟩]], [⟨[98], [2], none⟩, ⟨[97], [1], none⟩],
      fun _ => [⟨[97], [1], none⟩]⟩
    c.Ok ∧ selectDuring c.seen c.found [] [[1]] = [⟨[97], [1], none⟩] := by
  refine ⟨⟨by decide +kernel, by decide +kernel, by decide +kernel, fun id h => ?_, by simp⟩, by decide +kernel⟩
  obtain ⟨x, hx, hid⟩ := h _ (List.mem_cons_self ..)
  exact ⟨x, by simp only [List.mem_cons, List.not_mem_nil, or_false] at hx ⊢; exact hx.symm, hid⟩

/-- The list that is reached need not match: if a list is deleted and another one is created with its ID between
selecting and looking up, a request for a set is applied to a list of a different set. -/
theorem C90_other_list :
    ¬ ∀ (c : Call) (q : List (Str × Str)) (sets : List Str), c.Ok →
      ∀ e ∈ selectDuring c.seen c.found q sets, selects q sets e = true := by
  intro h
  have := h ⟨[[⟨[97], [1], none⟩], [], [⟨[97], [2], none⟩]], [⟨[97], [1], none⟩], fun _ => [⟨[97], [2], none⟩]⟩ [] [[1]]
    ⟨by decide +kernel, by decide +kernel, by decide +kernel, fun id h => h _ (List.mem_cons_self ..), by simp⟩
  revert this
  decide +kernel

end Props
end RankDB
