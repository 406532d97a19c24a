import Verif.Proofs.Complete.PrintAddress
import Verif.Model.Concrete
import Verif.Props.Email
/-
C24 and C25: mailboxes, groups and lists of them.
-/
namespace EmailParser
open Spec

variable (c : Cfg)

/-! ### C24 -/

/-- A mailbox laid out in any way — comments and folding anywhere, encoded words in the name — is read back
with its value. -/
theorem C24_any_layout (w r : Bytes) (m : Mailbox) (h : MailboxL c w m) (hr : CfwsEnd w r)
    (ha : Stops (fun b => atext b || b == 46) r) : mailbox c (w ++ r) = .ok (r, m) :=
  mailbox_append h hr ha

/-- Printing a mailbox and parsing it gives the mailbox back. -/
theorem C24_mailbox (m : Mailbox) (r : Bytes) (h : ValidMailbox m) (hf : NoFws r)
    (hr : Stops (fun b => atext b || b == 46 || b == 40) r) :
    mailbox c (printMailbox m ++ r) = .ok (r, m) := by
  refine mailbox_append (by simpa using printMailbox_layout (c := c) (g := []) optCfws_nil h) ?_
    (stops_mono hr (by simp +contextual))
  obtain ⟨u, b, e, hb⟩ := printMailbox_last m
  rw [e]
  exact cfwsEnd_last hf (stops_mono hr (by simp +contextual)) hb

/-- Different mailboxes are printed differently. -/
theorem C24_injective (m m' : Mailbox) (h : ValidMailbox m) (h' : ValidMailbox m')
    (e : printMailbox m = printMailbox m') : m = m' := by
  have h1 := C24_mailbox (Cfg.concrete .default) m [] h ⟨stops_nil, fun t e => by cases e⟩ stops_nil
  have h2 := C24_mailbox (Cfg.concrete .default) m' [] h' ⟨stops_nil, fun t e => by cases e⟩ stops_nil
  rw [e, h2] at h1
  simp only [Outcome.ok.injEq, Prod.mk.injEq, true_and] at h1
  exact h1.symm

example : printMailbox ⟨some [b! "Mary", b! "Q. \"Public\"", b! "=?x"], ⟨b! "a b", b! "IPv6:::1"⟩⟩ =
    b! "Mary \"Q. \\\"Public\\\"\" \"=?x\" <\"a b\"@[IPv6:::1]>" := by decide +kernel

example : ValidMailbox ⟨some [b! "Mary", b! "Q. \"Public\"", b! "=?x"], ⟨b! "a b", b! "IPv6:::1"⟩⟩ := by
  refine ⟨?_, ?_, .inr (by decide +kernel)⟩
  · rintro words ⟨⟩
    refine ⟨by simp, ?_⟩
    show ∀ x ∈ [b! "Mary", b! "Q. \"Public\"", b! "=?x"], ∀ b ∈ x, vchar b = true ∨ wsp b = true
    decide +kernel
  · show ∀ b ∈ b! "a b", vchar b = true ∨ wsp b = true
    decide +kernel

example : outcomeValue (mailbox (Cfg.concrete .full)
    (b! "Mary \"Q. \\\"Public\\\"\" \"=?x\" <\"a b\"@[IPv6:::1]>\r\n")) =
    some (b! "\r\n", ⟨some [b! "Mary", b! "Q. \"Public\"", b! "=?x"], ⟨b! "a b", b! "IPv6:::1"⟩⟩) := by
  decide +kernel

/-- Comments and folds between all parts, and encoded words. -/
example : outcomeValue (mailbox (Cfg.concrete .full)
    (b! " (c) Pete(A nice \\) chap) =?utf-8?q?B=C3=A9?= (x) \r\n <pete(his account)@ silly.test(his host)>,")) =
    some (b! ",", ⟨some [b! "Pete", [66, 0xC3, 0xA9]], ⟨b! "pete", b! "silly.test"⟩⟩) := by
  decide +kernel

/-- A comment before the first encoded word hides it: the word is taken as an atom. -/
example : outcomeValue (mailbox (Cfg.concrete .full) (b! "(c) =?utf-8?q?a?= <a@b>,")) =
    some (b! ",", ⟨some [b! "=?utf-8?q?a?="], ⟨b! "a", b! "b"⟩⟩) := by
  decide +kernel

/-! ### C25 -/

/-- Mailboxes and groups laid out in any way and separated by commas are read back as the same list. -/
theorem C25_any_layout (w r : Bytes) (as : List Address) (h : Commas (AddressL c) w as) (hr : CfwsEnd w r)
    (ha : Stops (fun b => atext b || b == 46 || b == 44) r) : addressList c (w ++ r) = .ok (r, as) :=
  addressList_append h hr ha

/-- Printing mailboxes and groups and parsing them gives the same list: same length, order and members. -/
theorem C25_addresses (as : List Address) (r : Bytes) (hne : as ≠ []) (h : ∀ a ∈ as, ValidAddressOrGroup a)
    (hf : NoFws r) (hr : Stops (fun b => atext b || b == 46 || b == 40 || b == 44) r) :
    addressList c (printCommas (as.map printAddress) ++ r) = .ok (r, as) := by
  have hl := printCommas_layout (c := c) (p := printAddress) (fun g a hg h => printAddress_layout hg h)
    [] as optCfws_nil hne h
  refine addressList_append (by simpa using hl) ?_ (stops_mono hr (by simp +contextual))
  obtain ⟨u, b, e, hb⟩ := printCommas_last printAddress_last as hne
  rw [e]
  exact cfwsEnd_last hf (stops_mono hr (by simp +contextual)) hb

/-- The same for lists of mailboxes only (headers From and Resent-From). -/
theorem C25_mailboxes (ms : List Mailbox) (r : Bytes) (hne : ms ≠ []) (h : ∀ m ∈ ms, ValidMailbox m)
    (hf : NoFws r) (hr : Stops (fun b => atext b || b == 46 || b == 40 || b == 44) r) :
    mailboxList c (printCommas (ms.map printMailbox) ++ r) = .ok (r, ms) := by
  have hl := printCommas_layout (c := c) (p := printMailbox) (fun g a hg h => printMailbox_layout hg h)
    [] ms optCfws_nil hne h
  refine mailboxList_append (by simpa using hl) ?_ (stops_mono hr (by simp +contextual))
  obtain ⟨u, b, e, hb⟩ := printCommas_last printMailbox_last ms hne
  rw [e]
  exact cfwsEnd_last hf (stops_mono hr (by simp +contextual)) hb

/-- A group alone. -/
theorem C25_group (name : List Bytes) (ms : List Mailbox) (r : Bytes)
    (h : ValidAddressOrGroup (.group name ms)) (hf : NoFws r) (hr : Stops (· == 40) r) :
    group c (printAddress (.group name ms) ++ r) = .ok (r, (name, ms)) := by
  have hn : GroupName c (printPhrase name) name := by
    simpa using printPhrase_groupName (c := c) (g := []) optCfws_nil h.1
  by_cases hms : ms = []
  · subst hms
    have := group_append (r := r) hn (groupList_empty (r := [] ++ r) gap_space) optCfws_nil (cfwsEnd_nil hf hr)
    simpa [printAddress, printCommas] using this
  · have hl := printCommas_layout (c := c) (p := printMailbox) (fun g a hg h => printMailbox_layout hg h)
      (b! " ") ms gap_space hms h.2
    have := group_append (r := r) hn (groupList_append (r := [] ++ r) hl) optCfws_nil (cfwsEnd_nil hf hr)
    simpa [printAddress] using this

example : printCommas ([.mailbox ⟨none, ⟨b! "a.b", b! "c"⟩⟩,
      .group [b! "A", b! "Group"] [⟨some [b! "Ed"], ⟨b! "e", b! "f"⟩⟩, ⟨none, ⟨b! "g", b! "h"⟩⟩],
      .group [b! "(nobody)"] []].map printAddress) =
    b! "a.b@c, A Group: Ed <e@f>, g@h;, \"(nobody)\": ;" := by decide +kernel

example : outcomeValue (addressList (Cfg.concrete .full)
    (b! "a.b@c, A Group: Ed <e@f>, g@h;, \"(nobody)\": ;\r\n")) =
    some (b! "\r\n", [.mailbox ⟨none, ⟨b! "a.b", b! "c"⟩⟩,
      .group [b! "A", b! "Group"] [⟨some [b! "Ed"], ⟨b! "e", b! "f"⟩⟩, ⟨none, ⟨b! "g", b! "h"⟩⟩],
      .group [b! "(nobody)"] []]) := by decide +kernel

/-- From RFC 5322, appendix A.5: comments everywhere. -/
example : outcomeValue (addressList (Cfg.concrete .full)
    (b! "A Group(Some people)\r\n     :Chris Jones <c@(Chris's host.)public.example>,\r\n         joe@example.org,\r\n  John <jdoe@one.test> (my dear friend); (the end of the group)\r\n")) =
    some (b! "\r\n", [.group [b! "A", b! "Group"]
      [⟨some [b! "Chris", b! "Jones"], ⟨b! "c", b! "public.example"⟩⟩,
       ⟨none, ⟨b! "joe", b! "example.org"⟩⟩,
       ⟨some [b! "John"], ⟨b! "jdoe", b! "one.test"⟩⟩]]) := by decide +kernel

/-- An `@` in an encoded word that begins the name of a group is taken for the one of an address. -/
example : outcomeValue (addressList (Cfg.concrete .full) (b! "=?utf-8?q?a@b?=: x@y;")) =
    some (b! ": x@y;", [.mailbox ⟨none, ⟨b! "=?utf-8?q?a", b! "b?="⟩⟩]) := by decide +kernel

/-- White space between an encoded word at the end of the name of a group and the colon: not accepted. -/
example : outcomeValue (addressList (Cfg.concrete .full) (b! "=?utf-8?q?a?= : x@y;")) = none := by
  decide +kernel

end EmailParser
