import Verif.Write

/-!
# Assertions of `/repo/md_toc/tests/tests.py` checked on the model

Generated by `/verif/tools/gen_conformance.py`.  These are tests of the model, not proofs of
properties.  The comment of each example is the line of the assertion.
-/

namespace MdToc.Conformance

set_option maxRecDepth 100000

/-- The text of the file after the call, `/repo/md_toc/api.py` 69-132. -/
def writtenText (text string marker nl : Str) : Except Exn Str :=
  (writeLines asciiEnv (linesKeep text) string marker nl).map (fun r => (r.2.getLast?).getD text)

/-- 157 -/
example : extractLines (linesKeep "foo".toList) 2 2 = .ok "".toList := by decide +kernel

/-- 158 -/
example : extractLines (linesKeep "foo".toList) 1024 2048 = .ok "".toList := by decide +kernel

/-- 159 -/
example : extractLines (linesKeep "foo".toList) 1 1 = .ok "foo".toList := by decide +kernel

/-- 164 -/
example : extractLines (linesKeep "foo\nbar".toList) 2 2 = .ok "bar".toList := by decide +kernel

/-- 166 -/
example : extractLines (linesKeep "foo\nbar".toList) 1 2 = .ok "foo\nbar".toList := by decide +kernel

/-- 172 -/
example : extractLines (linesKeep "foo\nbar\n".toList) 1 1024 = .ok "foo\nbar\n".toList := by decide +kernel

/-- 175 -/
example : extractLines (linesKeep "foo\nbar\n".toList) 2 2 = .ok "bar\n".toList := by decide +kernel

/-- 177 -/
example : extractLines (linesKeep "foo\nbar\n".toList) 2 3 = .ok "bar\n".toList := by decide +kernel

/-- 181 -/
example : extractLines (linesKeep "foo\nbar\n".toList) 0 0 = .error .ValueError := by decide +kernel

/-- 183 -/
example : extractLines (linesKeep "foo\nbar\n".toList) 0 1 = .error .ValueError := by decide +kernel

/-- 185 -/
example : extractLines (linesKeep "foo\nbar\n".toList) 1 0 = .error .ValueError := by decide +kernel

/-- 213 -/
example : getExistingToc asciiEnv (linesKeep "# foo".toList) "<!--TOC-->".toList = .ok ⟨"".toList, [], false, 0, [], 0⟩ := by decide +kernel

/-- 219 -/
example : getExistingToc asciiEnv (linesKeep "<!--TOC-->\n# foo".toList) "<!--TOC-->".toList = .ok ⟨"<!--TOC-->".toList, [], false, 1, [1], 1⟩ := by decide +kernel

/-- 229 -/
example : getExistingToc asciiEnv (linesKeep "<!--TOC-->\n\n- [t](#t)\n\n<!--TOC-->\n\n# foo".toList) "<!--TOC-->".toList = .ok ⟨"- [t](#t)".toList, [(1, 5)], true, 1, [1, 5], 1⟩ := by decide +kernel

/-- 241 -/
example : getExistingToc asciiEnv (linesKeep "<!--TOC-->\n\n- [t](#t)\n\n<!--TOC-->\n<!--TOC-->\n\n# foo".toList) "<!--TOC-->".toList = .ok ⟨"- [t](#t)".toList, [(1, 5)], true, 2, [1, 5, 6], 1⟩ := by decide +kernel

/-- 254 -/
example : getExistingToc asciiEnv (linesKeep "<!--TOC-->\n\n     - [t](#t)\n\n<!--TOC-->\n\n# foo".toList) "<!--TOC-->".toList = .ok ⟨"".toList, [], true, 1, [1, 5], 1⟩ := by decide +kernel

/-- 530 -/
example : writtenText "hello".toList "This is a static line".toList "<!--TOC-->".toList "\n".toList = .ok "hello".toList := by decide +kernel

/-- 542 -/
example : writtenText "hello\n<!--TOC-->".toList "This is a static line".toList "<!--TOC-->".toList "\n".toList = .ok "hello\n<!--TOC-->\n\nThis is a static line\n\n<!--TOC-->\n".toList := by decide +kernel

/-- 556 -/
example : writtenText "hello\n<!--TOC--><!--TOC-->".toList "This is a static line".toList "<!--TOC-->".toList "\n".toList = .ok "hello\n<!--TOC--><!--TOC-->".toList := by decide +kernel

/-- 569 -/
example : writtenText "hello\n<!--TOC-->\n\n- [hi](#hi)\n\n<!--TOC-->".toList "This is a static line".toList "<!--TOC-->".toList "\n".toList = .ok "hello\n<!--TOC-->\n\nThis is a static line\n\n<!--TOC-->\n".toList := by decide +kernel

/-- 584 -/
example : writtenText "hello\n<!--TOC-->\n- [hi](#hi)\n<!--TOC-->".toList "This is a static line".toList "<!--TOC-->".toList "\n".toList = .ok "hello\n<!--TOC-->\n\nThis is a static line\n\n<!--TOC-->\n<!--TOC-->\n- [hi](#hi)\n<!--TOC-->".toList := by decide +kernel

/-- 599 -/
example : writtenText "hello\n<!--TOC-->\n\n - [hi](#hi)\n\n<!--TOC-->".toList "This is a static line".toList "<!--TOC-->".toList "\n".toList = .ok "hello\n<!--TOC-->\n\nThis is a static line\n\n<!--TOC-->\n".toList := by decide +kernel

/-- 614 -/
example : writtenText "hello\n<!--TOC-->\n\n  - [hi](#hi)\n\n<!--TOC-->".toList "This is a static line".toList "<!--TOC-->".toList "\n".toList = .ok "hello\n<!--TOC-->\n\nThis is a static line\n\n<!--TOC-->\n".toList := by decide +kernel

/-- 629 -/
example : writtenText "hello\n<!--TOC-->\n\n   - [hi](#hi)\n\n<!--TOC-->".toList "This is a static line".toList "<!--TOC-->".toList "\n".toList = .ok "hello\n<!--TOC-->\n\nThis is a static line\n\n<!--TOC-->\n".toList := by decide +kernel

/-- 644 -/
example : writtenText "hello\n<!--TOC-->\n\n    - [hi](#hi)\n\n<!--TOC-->".toList "This is a static line".toList "<!--TOC-->".toList "\n".toList = .ok "hello\n<!--TOC-->\n\nThis is a static line\n\n<!--TOC-->\n<!--TOC-->\n\n    - [hi](#hi)\n\n<!--TOC-->".toList := by decide +kernel

/-- 659 -/
example : writtenText "hello\n<!--TOC-->\n - [hi](#hi)\n<!--TOC-->".toList "This is a static line".toList "<!--TOC-->".toList "\n".toList = .ok "hello\n<!--TOC-->\n\nThis is a static line\n\n<!--TOC-->\n<!--TOC-->\n - [hi](#hi)\n<!--TOC-->".toList := by decide +kernel

/-- 674 -/
example : writtenText "hello\n<!--TOC-->\n  - [hi](#hi)\n<!--TOC-->".toList "This is a static line".toList "<!--TOC-->".toList "\n".toList = .ok "hello\n<!--TOC-->\n\nThis is a static line\n\n<!--TOC-->\n<!--TOC-->\n  - [hi](#hi)\n<!--TOC-->".toList := by decide +kernel

/-- 689 -/
example : writtenText "hello\n<!--TOC-->\n   - [hi](#hi)\n<!--TOC-->".toList "This is a static line".toList "<!--TOC-->".toList "\n".toList = .ok "hello\n<!--TOC-->\n\nThis is a static line\n\n<!--TOC-->\n<!--TOC-->\n   - [hi](#hi)\n<!--TOC-->".toList := by decide +kernel

/-- 703 -/
example : writtenText "hello\n<!--TOC-->\n\n<!--TOC-->".toList "This is a static line".toList "<!--TOC-->".toList "\n".toList = .ok "hello\n<!--TOC-->\n\nThis is a static line\n\n<!--TOC-->\n".toList := by decide +kernel

/-- 717 -/
example : writtenText "hello\n<!--TOC-->\n<!--TOC-->".toList "This is a static line".toList "<!--TOC-->".toList "\n".toList = .ok "hello\n<!--TOC-->\n\nThis is a static line\n\n<!--TOC-->\n".toList := by decide +kernel

/-- 732 -/
example : writtenText "hello\n<!--TOC-->\n<!--TOC-->\n- [hi](#hi)\n<!--TOC-->".toList "This is a static line".toList "<!--TOC-->".toList "\n".toList = .ok "hello\n<!--TOC-->\n\nThis is a static line\n\n<!--TOC-->\n- [hi](#hi)\n<!--TOC-->".toList := by decide +kernel

/-- 747 -/
example : writtenText "hello\n<!--TOC-->\n<!--TOC-->\n - [hi](#hi)\n<!--TOC-->".toList "This is a static line".toList "<!--TOC-->".toList "\n".toList = .ok "hello\n<!--TOC-->\n\nThis is a static line\n\n<!--TOC-->\n - [hi](#hi)\n<!--TOC-->".toList := by decide +kernel

/-- 762 -/
example : writtenText "hello\n<!--TOC-->\n<!--TOC-->\n  - [hi](#hi)\n<!--TOC-->".toList "This is a static line".toList "<!--TOC-->".toList "\n".toList = .ok "hello\n<!--TOC-->\n\nThis is a static line\n\n<!--TOC-->\n  - [hi](#hi)\n<!--TOC-->".toList := by decide +kernel

/-- 777 -/
example : writtenText "hello\n<!--TOC-->\n<!--TOC-->\n   - [hi](#hi)\n<!--TOC-->".toList "This is a static line".toList "<!--TOC-->".toList "\n".toList = .ok "hello\n<!--TOC-->\n\nThis is a static line\n\n<!--TOC-->\n   - [hi](#hi)\n<!--TOC-->".toList := by decide +kernel

/-- 792 -/
example : writtenText "hello\n<!--TOC-->\n\n- [hi](#hi)\n\n<!--TOC-->\n<!--TOC-->".toList "This is a static line".toList "<!--TOC-->".toList "\n".toList = .ok "hello\n<!--TOC-->\n\nThis is a static line\n\n<!--TOC-->\n<!--TOC-->".toList := by decide +kernel

/-- 807 -/
example : writtenText "hello\n<!--TOC-->\n\n - [hi](#hi)\n\n<!--TOC-->\n<!--TOC-->".toList "This is a static line".toList "<!--TOC-->".toList "\n".toList = .ok "hello\n<!--TOC-->\n\nThis is a static line\n\n<!--TOC-->\n<!--TOC-->".toList := by decide +kernel

/-- 822 -/
example : writtenText "hello\n<!--TOC-->\n\n  - [hi](#hi)\n\n<!--TOC-->\n<!--TOC-->".toList "This is a static line".toList "<!--TOC-->".toList "\n".toList = .ok "hello\n<!--TOC-->\n\nThis is a static line\n\n<!--TOC-->\n<!--TOC-->".toList := by decide +kernel

/-- 837 -/
example : writtenText "hello\n<!--TOC-->\n\n   - [hi](#hi)\n\n<!--TOC-->\n<!--TOC-->".toList "This is a static line".toList "<!--TOC-->".toList "\n".toList = .ok "hello\n<!--TOC-->\n\nThis is a static line\n\n<!--TOC-->\n<!--TOC-->".toList := by decide +kernel

end MdToc.Conformance
