import Verif.Write

/-!
# Assertions of `/repo/md_toc/tests/tests.py` checked on the model

Generated by `/verif/tools/gen_conformance.py`.  These are tests of the model, not proofs of
properties.  The comment of each example is the line of the assertion.
-/

namespace MdToc.Conformance

set_option maxRecDepth 100000

/-- 2903 -/
example : getAtxHeading "# foo".toList 6 .github false = .ok [⟨(some 1), (some "foo".toList), true⟩] := by decide +kernel

/-- 2911 -/
example : getAtxHeading "#\tfoo".toList 6 .github false = .ok [⟨none, none, false⟩] := by decide +kernel

/-- 2919 -/
example : getAtxHeading "#\tfoo".toList 6 .cmark false = .ok [⟨(some 1), (some "foo".toList), true⟩] := by decide +kernel

/-- 2928 -/
example : getAtxHeading "## foo".toList 6 .github false = .ok [⟨(some 2), (some "foo".toList), true⟩] := by decide +kernel

/-- 2936 -/
example : getAtxHeading "##\tfoo".toList 6 .github false = .ok [⟨none, none, false⟩] := by decide +kernel

/-- 2944 -/
example : getAtxHeading "##\tfoo".toList 6 .cmark false = .ok [⟨(some 2), (some "foo".toList), true⟩] := by decide +kernel

/-- 2953 -/
example : getAtxHeading "### foo".toList 6 .github false = .ok [⟨(some 3), (some "foo".toList), true⟩] := by decide +kernel

/-- 2961 -/
example : getAtxHeading "###\tfoo".toList 6 .github false = .ok [⟨none, none, false⟩] := by decide +kernel

/-- 2969 -/
example : getAtxHeading "###\tfoo".toList 6 .cmark false = .ok [⟨(some 3), (some "foo".toList), true⟩] := by decide +kernel

/-- 2978 -/
example : getAtxHeading "#### foo".toList 6 .github false = .ok [⟨(some 4), (some "foo".toList), true⟩] := by decide +kernel

/-- 2986 -/
example : getAtxHeading "####\tfoo".toList 6 .github false = .ok [⟨none, none, false⟩] := by decide +kernel

/-- 2994 -/
example : getAtxHeading "####\tfoo".toList 6 .cmark false = .ok [⟨(some 4), (some "foo".toList), true⟩] := by decide +kernel

/-- 3003 -/
example : getAtxHeading "##### foo".toList 6 .github false = .ok [⟨(some 5), (some "foo".toList), true⟩] := by decide +kernel

/-- 3011 -/
example : getAtxHeading "#####\tfoo".toList 6 .github false = .ok [⟨none, none, false⟩] := by decide +kernel

/-- 3019 -/
example : getAtxHeading "#####\tfoo".toList 6 .cmark false = .ok [⟨(some 5), (some "foo".toList), true⟩] := by decide +kernel

/-- 3028 -/
example : getAtxHeading "###### foo".toList 6 .github false = .ok [⟨(some 6), (some "foo".toList), true⟩] := by decide +kernel

/-- 3036 -/
example : getAtxHeading "######\tfoo".toList 6 .github false = .ok [⟨none, none, false⟩] := by decide +kernel

/-- 3044 -/
example : getAtxHeading "######\tfoo".toList 6 .cmark false = .ok [⟨(some 6), (some "foo".toList), true⟩] := by decide +kernel

/-- 3056 -/
example : getAtxHeading "####### foo".toList 7 .github false = .ok [⟨none, none, false⟩] := by decide +kernel

/-- 3068 -/
example : getAtxHeading "#5 bolt\n\n#hashtag".toList 6 .github false = .ok [⟨none, none, false⟩, ⟨none, none, false⟩, ⟨none, none, false⟩] := by decide +kernel

/-- 3089 -/
example : getAtxHeading "\\# foo".toList 6 .github false = .ok [⟨none, none, false⟩] := by decide +kernel

/-- 3103 -/
example : getAtxHeading "\\## foo".toList 6 .github false = .ok [⟨none, none, false⟩] := by decide +kernel

/-- 3118 -/
example : getAtxHeading "# foo *bar* \\*baz\\*".toList 6 .github false = .ok [⟨(some 1), (some "foo *bar* \\*baz\\*".toList), true⟩] := by decide +kernel

/-- 3138 -/
example : getAtxHeading "# foo *bar* \\*baz\\*".toList 3 .github false = .ok [⟨(some 1), (some "foo *bar* \\*baz\\*".toList), true⟩] := by decide +kernel

/-- 3155 -/
example : getAtxHeading "#                  foo                     ".toList 6 .github false = .ok [⟨(some 1), (some "foo".toList), true⟩] := by decide +kernel

/-- 3167 -/
example : getAtxHeading "#\t\t\t\t\t\t\t\t\t\t\t\t\t\t\t\t\t\tfoo\t\t\t\t\t\t\t\t\t\t\t\t\t\t\t\t\t\t\t\t\t".toList 6 .github false = .ok [⟨none, none, false⟩] := by decide +kernel

/-- 3179 -/
example : getAtxHeading "#\t\t\t\t\t\t\t\t\t\t\t\t\t\t\t\t\t\tfoo\t\t\t\t\t\t\t\t\t\t\t\t\t\t\t\t\t\t\t\t\t".toList 6 .cmark false = .ok [⟨(some 1), (some "foo".toList), true⟩] := by decide +kernel

/-- 3195 -/
example : getAtxHeading " ### foo".toList 6 .github false = .ok [⟨(some 3), (some "foo".toList), true⟩] := by decide +kernel

/-- 3207 -/
example : getAtxHeading "  ## foo".toList 6 .github false = .ok [⟨(some 2), (some "foo".toList), true⟩] := by decide +kernel

/-- 3219 -/
example : getAtxHeading "   # foo".toList 6 .github false = .ok [⟨(some 1), (some "foo".toList), true⟩] := by decide +kernel

/-- 3235 -/
example : getAtxHeading "    # foo".toList 6 .github false = .ok [⟨none, none, false⟩] := by decide +kernel

/-- 3251 -/
example : getAtxHeading "foo\n    # bar".toList 6 .github false = .ok [⟨none, none, false⟩, ⟨none, none, false⟩] := by decide +kernel

/-- 3272 -/
example : getAtxHeading "## foo ##".toList 6 .github false = .ok [⟨(some 2), (some "foo".toList), true⟩] := by decide +kernel

/-- 3284 -/
example : getAtxHeading "  ###   bar    ###".toList 6 .github false = .ok [⟨(some 3), (some "bar".toList), true⟩] := by decide +kernel

/-- 3300 -/
example : getAtxHeading "# foo ##################################".toList 6 .github false = .ok [⟨(some 1), (some "foo".toList), true⟩] := by decide +kernel

/-- 3313 -/
example : getAtxHeading "##### foo ##".toList 6 .github false = .ok [⟨(some 5), (some "foo".toList), true⟩] := by decide +kernel

/-- 3327 -/
example : getAtxHeading "###################################".toList 6 .github false = .ok [⟨none, none, false⟩] := by decide +kernel

/-- 3339 -/
example : getAtxHeading "### foo ###     ".toList 6 .github false = .ok [⟨(some 3), (some "foo".toList), true⟩] := by decide +kernel

/-- 3351 -/
example : getAtxHeading "### foo ###\t\t\t\t\t".toList 6 .github false = .ok [⟨(some 3), (some "foo ###\t\t\t\t\t".toList), true⟩] := by decide +kernel

/-- 3363 -/
example : getAtxHeading "### foo ###\t\t\t\t\t".toList 6 .cmark false = .ok [⟨(some 3), (some "foo".toList), true⟩] := by decide +kernel

/-- 3379 -/
example : getAtxHeading "### foo ### b".toList 6 .github false = .ok [⟨(some 3), (some "foo ### b".toList), true⟩] := by decide +kernel

/-- 3396 -/
example : getAtxHeading "# foo#".toList 6 .github false = .ok [⟨(some 1), (some "foo#".toList), true⟩] := by decide +kernel

/-- 3408 -/
example : getAtxHeading "# foo #".toList 6 .github false = .ok [⟨(some 1), (some "foo".toList), true⟩] := by decide +kernel

/-- 3420 -/
example : getAtxHeading "# foo\t#".toList 6 .github false = .ok [⟨(some 1), (some "foo\t#".toList), true⟩] := by decide +kernel

/-- 3432 -/
example : getAtxHeading "# foo\t#".toList 6 .cmark false = .ok [⟨(some 1), (some "foo".toList), true⟩] := by decide +kernel

/-- 3456 -/
example : getAtxHeading "### foo \\###".toList 6 .github false = .ok [⟨(some 3), (some "foo \\###".toList), true⟩] := by decide +kernel

/-- 3468 -/
example : getAtxHeading "## foo #\\##".toList 6 .github false = .ok [⟨(some 2), (some "foo #\\##".toList), true⟩] := by decide +kernel

/-- 3481 -/
example : getAtxHeading "# foo \\#".toList 6 .github false = .ok [⟨(some 1), (some "foo \\#".toList), true⟩] := by decide +kernel

/-- 3497 -/
example : getAtxHeading "****\n## foo\n****".toList 6 .github false = .ok [⟨none, none, false⟩, ⟨(some 2), (some "foo".toList), true⟩, ⟨none, none, false⟩] := by decide +kernel

/-- 3522 -/
example : getAtxHeading "Foo bar\n# baz\nBar foo".toList 6 .github false = .ok [⟨none, none, false⟩, ⟨(some 1), (some "baz".toList), true⟩, ⟨none, none, false⟩] := by decide +kernel

/-- 3547 -/
example : getAtxHeading "## ".toList 6 .github true = .ok [⟨(some 2), (some "".toList), true⟩] := by decide +kernel

/-- 3555 -/
example : getAtxHeading "#".toList 6 .github true = .ok [⟨(some 1), (some "".toList), true⟩] := by decide +kernel

/-- 3563 -/
example : getAtxHeading "### ###".toList 6 .github true = .ok [⟨(some 3), (some "".toList), true⟩] := by decide +kernel

/-- 3577 -/
example : getAtxHeading "## ".toList 6 .github false = .error .GithubEmptyLinkLabel := by decide +kernel

/-- 3579 -/
example : getAtxHeading "#".toList 6 .github false = .error .GithubEmptyLinkLabel := by decide +kernel

/-- 3581 -/
example : getAtxHeading "### ###".toList 6 .github false = .error .GithubEmptyLinkLabel := by decide +kernel

/-- 3585 -/
example : getAtxHeading "# [ foo [bar]]".toList 6 .github false = .ok [⟨(some 1), (some "\\[ foo \\[bar\\]\\]".toList), true⟩] := by decide +kernel

/-- 3605 -/
example : getAtxHeading "# \\\\[ foo".toList 6 .github false = .ok [⟨(some 1), (some "\\\\\\[ foo".toList), true⟩] := by decide +kernel

/-- 3624 -/
example : getAtxHeading "## foo\\".toList 6 .github false = .ok [⟨(some 2), (some "foo\\ ".toList), true⟩] := by decide +kernel

/-- 3646 -/
example : getAtxHeading "".toList 6 .github false = .ok [⟨none, none, false⟩] := by decide +kernel

/-- 3656 -/
example : getAtxHeading "# foo\n\n# foo\n".toList 6 .github false = .ok [⟨(some 1), (some "foo".toList), true⟩, ⟨none, none, false⟩, ⟨(some 1), (some "foo".toList), true⟩] := by decide +kernel

/-- 3683 -/
example : getAtxHeading "#\n".toList 6 .github true = .ok [⟨(some 1), (some "".toList), true⟩] := by decide +kernel

/-- 3691 -/
example : getAtxHeading "#\r".toList 6 .github true = .ok [⟨(some 1), (some "".toList), true⟩] := by decide +kernel

/-- 3706 -/
example : getAtxHeading "# foo\nfoo".toList 6 .github false = .ok [⟨(some 1), (some "foo".toList), true⟩, ⟨none, none, false⟩] := by decide +kernel

/-- 3723 -/
example : getAtxHeading "# foo\rfoo".toList 6 .github false = .ok [⟨(some 1), (some "foo".toList), true⟩, ⟨none, none, false⟩] := by decide +kernel

/-- 3743 -/
example : getAtxHeading "#\n".toList 6 .github false = .error .GithubEmptyLinkLabel := by decide +kernel

/-- 3745 -/
example : getAtxHeading "#\r".toList 6 .github false = .error .GithubEmptyLinkLabel := by decide +kernel

/-- 3755 -/
example : getAtxHeading "## foo".toList 1 .github false = .ok [⟨(some 2), (some "foo".toList), false⟩] := by decide +kernel

/-- 3767 -/
example : getAtxHeading "### foo".toList 1 .github false = .ok [⟨(some 3), (some "foo".toList), false⟩] := by decide +kernel

/-- 3779 -/
example : getAtxHeading "##### foo".toList 2 .github false = .ok [⟨(some 5), (some "foo".toList), false⟩] := by decide +kernel

/-- 3791 -/
example : getAtxHeading "###### foo".toList 5 .github false = .ok [⟨(some 6), (some "foo".toList), false⟩] := by decide +kernel

/-- 3810 -/
example : getAtxHeading " # foo".toList 6 .redcarpet false = .ok [⟨none, none, false⟩] := by decide +kernel

/-- 3823 -/
example : getAtxHeading "# foo".toList 6 .redcarpet false = .ok [⟨(some 1), (some "foo".toList), true⟩] := by decide +kernel

/-- 3836 -/
example : getAtxHeading "# foo #".toList 6 .redcarpet false = .ok [⟨(some 1), (some "foo".toList), true⟩] := by decide +kernel

/-- 3849 -/
example : getAtxHeading "# foo ###".toList 6 .redcarpet false = .ok [⟨(some 1), (some "foo".toList), true⟩] := by decide +kernel

/-- 3862 -/
example : getAtxHeading "### foo ###\n".toList 6 .redcarpet false = .ok [⟨(some 3), (some "foo".toList), true⟩] := by decide +kernel

/-- 3875 -/
example : getAtxHeading "# foo ### ".toList 6 .redcarpet false = .ok [⟨(some 1), (some "foo ###".toList), true⟩] := by decide +kernel

/-- 3888 -/
example : getAtxHeading "# foo #\\\\##".toList 6 .redcarpet false = .ok [⟨(some 1), (some "foo #\\\\".toList), true⟩] := by decide +kernel

/-- 3905 -/
example : getAtxHeading "# foo#\\# #".toList 6 .redcarpet false = .ok [⟨(some 1), (some "foo#\\#".toList), true⟩] := by decide +kernel

/-- 3920 -/
example : getAtxHeading "# foo \\".toList 6 .redcarpet false = .ok [⟨(some 1), (some "foo \\ ".toList), true⟩] := by decide +kernel

/-- 3935 -/
example : getAtxHeading "".toList 6 .redcarpet false = .ok [⟨none, none, false⟩] := by decide +kernel

/-- 3945 -/
example : getAtxHeading "#\n".toList 6 .redcarpet false = .ok [⟨none, none, false⟩] := by decide +kernel

/-- 3954 -/
example : getAtxHeading "# foo\nfoo".toList 6 .redcarpet false = .ok [⟨(some 1), (some "foo".toList), true⟩, ⟨none, none, false⟩] := by decide +kernel

/-- 3971 -/
example : getAtxHeading "#\r".toList 6 .redcarpet false = .ok [⟨none, none, false⟩] := by decide +kernel

/-- 3983 -/
example : getAtxHeading "# foo\rfoo".toList 6 .redcarpet false = .ok [⟨(some 1), (some "foo".toList), true⟩, ⟨none, none, false⟩] := by decide +kernel

end MdToc.Conformance
