import Verif.Props.Requests
import Verif.Lemmas.WikiLinks

/-! # C70: image files are asked for where the wiki stores them -/

namespace Verif.Props
open Verif.Go Verif.Model Verif.Spec Verif.Lemmas

theorem isWikiDomain_iff (host : Str) : isWikiDomainWithSubdomain host = true ↔ WikiSubdomain host := by
  unfold isWikiDomainWithSubdomain WikiSubdomain
  simp only [List.any_eq_true, List.mem_range, Bool.and_eq_true, decide_eq_true_eq, hasPrefix, List.isPrefixOf_iff_prefix]
  constructor
  · rintro ⟨i, hi, ⟨h0, h1⟩, j, hj, ⟨h2, h3⟩, h4⟩
    obtain ⟨r1, e1⟩ := h1
    obtain ⟨r2, e2⟩ := h3
    have t1 := List.take_append_drop i host
    have t2 := List.take_append_drop (j - (i + 5)) r1
    have hr1 : r1 = host.drop (i + 5) := by
      rw [← List.drop_drop, ← e1]; rfl
    have hr2 : r1.drop (j - (i + 5)) = host.drop j := by
      rw [hr1, List.drop_drop]; congr 1; omega
    have hl := congrArg List.length e2
    have hl1 := congrArg List.length hr1
    simp only [List.length_append, List.length_drop, List.length_cons, List.length_nil] at hl hl1
    refine ⟨host.take i, r1.take (j - (i + 5)), r2, ?_, ?_, ?_, ?_⟩
    · intro h
      have := congrArg List.length h
      rw [List.length_take, List.length_nil] at this
      omega
    · intro h
      have := congrArg List.length h
      rw [List.length_take, List.length_nil] at this
      omega
    · intro h; rw [h] at hl; simp at hl; omega
    · rw [hr2, ← e2] at t2
      rw [← e1, ← t2] at t1
      rw [← t1]
      have hx : List.take i (List.take i host ++ (b!".wiki" ++ (List.take (j - (i + 5)) r1 ++ (b!"." ++ r2)))) = List.take i host := by
        rw [t1]
      rw [hx]
      simp
  · rintro ⟨sub, name, top, h1, h2, h3, rfl⟩
    have l1 := List.length_pos_iff.mpr h1
    have l2 := List.length_pos_iff.mpr h2
    have l3 := List.length_pos_iff.mpr h3
    refine ⟨sub.length, by simp, ⟨l1, ?_⟩, sub.length + 5 + name.length, by simp; omega, ⟨by omega, ?_⟩, by simp; omega⟩
    · simp only [List.append_assoc]
      rw [List.drop_left]
      exact List.prefix_append _ _
    · have : sub ++ b!".wiki" ++ name ++ b!"." ++ top = (sub ++ b!".wiki" ++ name) ++ (b!"." ++ top) := by simp
      rw [this, List.drop_left' (by simp; omega)]
      exact List.prefix_append _ _

theorem wikiFolder (host : Str) : WikiFolder host (wikiInstancePathSegment host) := by
  unfold WikiFolder wikiInstancePathSegment
  by_cases h : isWikiDomainWithSubdomain host = true
  · refine .inl ⟨(isWikiDomain_iff host).mp h, ?_⟩
    rw [if_pos h]
    obtain ⟨sub, name, top, _, _, _, e⟩ := (isWikiDomain_iff host).mp h
    have hd : (0x2E : Byte) ∈ host := by rw [e]; simp
    obtain ⟨a, b, rfl, ha⟩ := List.append_of_mem hd |>.elim fun _ _ => List.eq_append_cons_of_mem hd
    have hc : cut b!"." (a ++ 0x2E :: b) = some (a, b) := cut_single _ ha
    simp only [splitN, hc, List.headD_cons]
    refine (takeWhile_append_stop (a := a) ?_ (by decide)).1.symm
    intro x hx
    simp only [ne_eq, decide_not, Bool.not_eq_true', decide_eq_false_iff_not]
    rintro rfl; exact ha hx
  · exact .inr ⟨fun h' => h ((isWikiDomain_iff host).mpr h'), by rw [if_neg h]⟩

theorem folder_no_slash {host : Str} (h : (0x2F : Byte) ∉ host) : (0x2F : Byte) ∉ wikiInstancePathSegment host := by
  rcases wikiFolder host with ⟨_, e⟩ | ⟨_, e⟩
  · rw [e]; exact fun hx => h (List.takeWhile_subset _ hx)
  · rw [e]; simp

/-- A request for the file `name` of the wiki `host`: it goes to the image server and names the folder of the wiki, the
folders for the first one and the first two digits of the checksum of the name, and the name. -/
def AsksForFile (c : WikiConf) (host name : Str) : Event → Prop
  | .request method url body => method = b!"GET" ∧ body = [] ∧ hostOf url = some c.imageHost ∧
      ∃ folder d0 d1 rest file, pathParts url = [b!"wikipedia", folder, [d0], [d0, d1], file] ∧ WikiFolder host folder ∧
        c.md5hex name = d0 :: d1 :: rest ∧ urlDecode false file = some name
  | .sleep _ => True
  | .command _ _ => False

theorem slash_not_in_queryEscape (s : Str) : (0x2F : Byte) ∉ queryEscape s := by
  intro h
  rcases queryEscape_bytes s _ h with h | h | h <;> exact absurd h (by decide)

theorem imageUrl_asks (c : WikiConf) (host name url : Str) (hh : (0x2F : Byte) ∉ host) (hi : (0x2F : Byte) ∉ c.imageHost)
    (hx : ∀ s, (0x2F : Byte) ∉ c.md5hex s) (hs : (0x20 : Byte) ∉ name) (hu : imageUrl c host name = .ok url) :
    AsksForFile c host name (.request b!"GET" url []) := by
  unfold imageUrl at hu
  simp only at hu
  have hmd := hx name
  rcases hm : c.md5hex name with _ | ⟨d0, _ | ⟨d1, rest⟩⟩
  · rw [hm] at hu; cases hu
  · rw [hm] at hu; cases hu
  · rw [hm] at hu hmd
    have : url = b!"https://" ++ (c.imageHost ++ 0x2F :: (b!"wikipedia" ++ 0x2F :: (wikiInstancePathSegment host ++ 0x2F ::
        ([d0] ++ 0x2F :: ([d0, d1] ++ 0x2F :: queryEscape name))))) := by
      cases hu
      simp
    have h0 : (0x2F : Byte) ≠ d0 := fun h => hmd (by simp [h])
    have h1 : (0x2F : Byte) ≠ d1 := fun h => hmd (by simp [h])
    refine ⟨rfl, rfl, ?_, wikiInstancePathSegment host, d0, d1, rest, queryEscape name, ?_, wikiFolder host, hm, ?_⟩
    · rw [this, hostOf, if_pos (by simp [hasPrefix, List.isPrefixOf])]
      show some (List.takeWhile _ (c.imageHost ++ _)) = _
      rw [(takeWhile_append_stop (a := c.imageHost) ?_ (by decide)).1]
      intro x hx
      simp only [ne_eq, decide_not, Bool.not_eq_true', decide_eq_false_iff_not]
      rintro rfl; exact hi hx
    · rw [this, pathParts]
      show (split (c.imageHost ++ _) b!"/").drop 1 = _
      rw [split_singleton_append _ hi, split_singleton_append _ (by decide), split_singleton_append _ (folder_no_slash hh),
        split_singleton_append _ (by simpa using h0), split_singleton_append _ (by simpa using ⟨h0, h1⟩),
        split_singleton_of_not_mem (slash_not_in_queryEscape name)]
      rfl
    · have := urlDecode_queryEscape_append hs []
      simpa [urlDecode] using this

theorem no_space_underscores (s : Str) : (0x20 : Byte) ∉ underscores s := by
  rw [underscores_map]
  intro h
  obtain ⟨x, _, e⟩ := List.mem_map.mp h
  split at e
  · cases e
  · contradiction

/-- **C70** After the page of an image has been read, all that is asked for is the file itself: at the image server, in
the folder of the wiki, with exactly the name that the page has (after redirects), with underscores for spaces. -/
theorem C70_image_requests (c : WikiConf) (host image name : Str) (env : WebEnv) (w w1 : World) (article : ArticleDto)
    (hh : (0x2F : Byte) ∉ host) (hi : (0x2F : Byte) ∉ c.imageHost) (hx : ∀ s, (0x2F : Byte) ∉ c.md5hex s)
    (himg : ∃ ns, image = ns ++ b!":" ++ name ∧ (0x3A : Byte) ∉ ns ∧ (0x3A : Byte) ∉ name)
    (ha : downloadArticle c host (b!"File:" ++ name) env w = (.ok article, w1))
    (ns actual : Str) (ht : article.title = ns ++ b!":" ++ actual) (hns : (0x3A : Byte) ∉ ns) (hac : (0x3A : Byte) ∉ actual) :
    ∃ new, (downloadImage c host image env w).2.events = w1.events ++ new ∧
      ∀ e ∈ new, AsksForFile c host (actual.map fun c => if c = 0x20 then 0x5F else c) e := by
  obtain ⟨ns', rfl, hn1, hn2⟩ := himg
  rw [← underscores_map]
  have hrest : Emits (AsksForFile c host (underscores actual)) (Web.lift (afterColon article.originalTitle) >>= fun originalName =>
      Web.lift (afterColon article.title) >>= fun actualName => Web.lift (imageUrl c host (underscores actualName)) >>= fun url =>
      Model.downloadAndCache url imageFolder (underscores originalName) >>= fun x =>
      Model.whenW (x.2 && c.svgSizeToViewbox && ext x.1 == b!".svg") (Model.svgToViewbox c x.1) >>= fun _ => pure (x.1, x.2)) := by
    refine .bind (.lift _) fun orig => .bind_lift fun act hact => .bind_lift fun url hu => ?_
    rw [ht, split_colon hns hac] at hact
    cases hact
    refine .bind (.downloadAndCache _ _ _ (imageUrl_asks c host _ url hh hi hx (no_space_underscores _) hu) fun _ => trivial) ?_
    exact fun x => .bind (.whenW _ (.svgToViewbox _ _)) fun _ => .pure _
  have hd : downloadImage c host (ns' ++ b!":" ++ name) env w =
      (Model.downloadArticle c host (b!"File:" ++ name) >>= fun article => Web.lift (afterColon article.originalTitle) >>= fun originalName =>
      Web.lift (afterColon article.title) >>= fun actualName => Web.lift (imageUrl c host (underscores actualName)) >>= fun url =>
      Model.downloadAndCache url imageFolder (underscores originalName) >>= fun x =>
      Model.whenW (x.2 && c.svgSizeToViewbox && ext x.1 == b!".svg") (Model.svgToViewbox c x.1) >>= fun _ => pure (x.1, x.2)) env w := by
    unfold downloadImage
    rw [web_bind_ok (show Web.lift (afterColon (ns' ++ b!":" ++ name)) env w = (.ok name, w) by rw [split_colon hn1 hn2]; rfl)]
  rw [hd, web_bind_ok ha]
  exact hrest env w1

/-- The folder of a wiki on the image server is its subdomain, and hosts without subdomain have none. -/
example : WikiFolder b!"commons.wikimedia.org" b!"commons" ∧ WikiFolder b!"wikipedia.org" [] ∧
    WikiFolder b!"de.wiki.x" [] := by
  refine ⟨?_, ?_, ?_⟩
  · exact .inl ⟨⟨b!"commons", b!"media", b!"org", by simp, by simp, by simp, rfl⟩, by decide⟩
  · exact .inr ⟨by rw [← isWikiDomain_iff]; decide +kernel, rfl⟩
  · exact .inr ⟨by rw [← isWikiDomain_iff]; decide +kernel, rfl⟩

/-- The hypotheses are met: the page of the file is a redirect to a file with spaces and a plus sign in its name. -/
example :
    let w : World := ⟨[], 0, [], [answer 200 [] [] b!"Datei:A b+c.jpg|x", answer 200 [] [] b!"picture"]⟩
    let c := demoConf []
    let r := downloadArticle c b!"de.wikipedia.org" b!"File:old.jpg" (demoWebBig ⟨true, none⟩) w
    r.1 = .ok ⟨b!"Datei:A b+c.jpg", b!"x", b!"File:old.jpg"⟩ ∧ (0x2F : Byte) ∉ c.imageHost ∧
    requestedUrls (downloadImage c b!"de.wikipedia.org" b!"File:old.jpg" (demoWebBig ⟨true, none⟩) w).2.events =
      [articleUrl b!"de.wikipedia.org" b!"File:old.jpg", b!"https://upload.org/wikipedia/de/a/ab/A_b%2Bc.jpg"] := by
  decide +kernel

end Verif.Props
