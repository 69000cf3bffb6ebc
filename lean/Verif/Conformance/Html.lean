import Verif.Write

/-!
# Assertions of `/repo/md_toc/tests/tests.py` checked on the model

Generated by `/verif/tools/gen_conformance.py`.  These are tests of the model, not proofs of
properties.  The comment of each example is the line of the assertion.
-/

namespace MdToc.Conformance

set_option maxRecDepth 100000

/-- 2424 -/
example : removeHtmlTags asciiEnv "<a><bab><c2c>".toList .github = "".toList := by decide +kernel

/-- 2428 -/
example : removeHtmlTags asciiEnv "<a><bab><c2c>".toList .cmark = "".toList := by decide +kernel

/-- 2437 -/
example : removeHtmlTags asciiEnv "<a/><b2/>".toList .github = "".toList := by decide +kernel

/-- 2441 -/
example : removeHtmlTags asciiEnv "<a/><b2/>".toList .cmark = "".toList := by decide +kernel

/-- 2451 -/
example : removeHtmlTags asciiEnv "<a  /><b2\ndata=\"foo\" >".toList .github = "".toList := by decide +kernel

/-- 2455 -/
example : removeHtmlTags asciiEnv "<a  /><b2\r\ndata=\"foo\" >".toList .github = "".toList := by decide +kernel

/-- 2459 -/
example : removeHtmlTags asciiEnv "<a  /><b2\rdata=\"foo\" >".toList .github = "".toList := by decide +kernel

/-- 2463 -/
example : removeHtmlTags asciiEnv "<a  /><b2\n\rdata=\"foo\" >".toList .github = "".toList := by decide +kernel

/-- 2467 -/
example : removeHtmlTags asciiEnv "<a\t/><b2\ndata=\"foo\" >".toList .github = "".toList := by decide +kernel

/-- 2472 -/
example : removeHtmlTags asciiEnv "<a\t\t  /><b2\n\ndata=\"foo\" >".toList .github = "".toList := by decide +kernel

/-- 2477 -/
example : removeHtmlTags asciiEnv "<a  /><b2\ndata=\"foo\" >".toList .cmark = "".toList := by decide +kernel

/-- 2481 -/
example : removeHtmlTags asciiEnv "<a  /><b2\r\ndata=\"foo\" >".toList .cmark = "".toList := by decide +kernel

/-- 2485 -/
example : removeHtmlTags asciiEnv "<a  /><b2\rdata=\"foo\" >".toList .cmark = "".toList := by decide +kernel

/-- 2489 -/
example : removeHtmlTags asciiEnv "<a  /><b2\n\rdata=\"foo\" >".toList .cmark = "<b2\n\rdata=\"foo\" >".toList := by decide +kernel

/-- 2493 -/
example : removeHtmlTags asciiEnv "<a\t\t  /><b2\ndata=\"foo\" >".toList .cmark = "".toList := by decide +kernel

/-- 2498 -/
example : removeHtmlTags asciiEnv "<a\t/><b2\n\ndata=\"foo\" >".toList .cmark = "<b2\n\ndata=\"foo\" >".toList := by decide +kernel

/-- 2507 -/
example : removeHtmlTags asciiEnv "<a foo=\"bar\" bam = 'baz <em>\"</em>'\n_boolean zoop:33=zoop:33 />".toList .github = "".toList := by decide +kernel

/-- 2513 -/
example : removeHtmlTags asciiEnv "<a foo=\"bar\" bam = 'baz <em>\"</em>'\n_boolean zoop:33=zoop:33 />".toList .cmark = "".toList := by decide +kernel

/-- 2524 -/
example : removeHtmlTags asciiEnv "Foo <responsive-image src=\"foo.jpg\" />".toList .github = "Foo ".toList := by decide +kernel

/-- 2529 -/
example : removeHtmlTags asciiEnv "Foo <responsive-image src=\"foo.jpg\" />".toList .cmark = "Foo ".toList := by decide +kernel

/-- 2539 -/
example : removeHtmlTags asciiEnv "<33> <__>".toList .github = "<33> <__>".toList := by decide +kernel

/-- 2543 -/
example : removeHtmlTags asciiEnv "<33> <__>".toList .cmark = "<33> <__>".toList := by decide +kernel

/-- 2552 -/
example : removeHtmlTags asciiEnv "<a h*#ref=\"hi\">".toList .github = "<a h*#ref=\"hi\">".toList := by decide +kernel

/-- 2556 -/
example : removeHtmlTags asciiEnv "<a h*#ref=\"hi\">".toList .cmark = "<a h*#ref=\"hi\">".toList := by decide +kernel

/-- 2565 -/
example : removeHtmlTags asciiEnv "<a href=\"hi'> <a href=hi'>".toList .github = "<a href=\"hi'> <a href=hi'>".toList := by decide +kernel

/-- 2569 -/
example : removeHtmlTags asciiEnv "<a href=\"hi'> <a href=hi'>".toList .cmark = "<a href=\"hi'> <a href=hi'>".toList := by decide +kernel

/-- 2578 -/
example : removeHtmlTags asciiEnv "< a><\nfoo><bar/ >".toList .github = "< a><\nfoo><bar/ >".toList := by decide +kernel

/-- 2582 -/
example : removeHtmlTags asciiEnv "< a><\nfoo><bar/ >".toList .cmark = "< a><\nfoo><bar/ >".toList := by decide +kernel

/-- 2591 -/
example : removeHtmlTags asciiEnv "<a href='bar'title=title>".toList .github = "<a href='bar'title=title>".toList := by decide +kernel

/-- 2595 -/
example : removeHtmlTags asciiEnv "<a href='bar'title=title>".toList .cmark = "<a href='bar'title=title>".toList := by decide +kernel

/-- 2604 -/
example : removeHtmlTags asciiEnv "</a></foo >".toList .github = "".toList := by decide +kernel

/-- 2608 -/
example : removeHtmlTags asciiEnv "</a></foo >".toList .cmark = "".toList := by decide +kernel

/-- 2617 -/
example : removeHtmlTags asciiEnv "</a href=\"foo\">".toList .github = "</a href=\"foo\">".toList := by decide +kernel

/-- 2621 -/
example : removeHtmlTags asciiEnv "</a href=\"foo\">".toList .cmark = "</a href=\"foo\">".toList := by decide +kernel

/-- 2630 -/
example : removeHtmlTags asciiEnv "foo <!-- this is a\ncomment - with hyphen -->".toList .github = "foo ".toList := by decide +kernel

/-- 2635 -/
example : removeHtmlTags asciiEnv "foo <!-- this is a\ncomment - with hyphen -->".toList .cmark = "foo ".toList := by decide +kernel

/-- 2645 -/
example : removeHtmlTags asciiEnv "foo <!-- not a comment -- two hyphens -->".toList .github = "foo <!-- not a comment -- two hyphens -->".toList := by decide +kernel

/-- 2650 -/
example : removeHtmlTags asciiEnv "foo <!-- not a comment -- two hyphens -->".toList .cmark = "foo <!-- not a comment -- two hyphens -->".toList := by decide +kernel

/-- 2660 -/
example : removeHtmlTags asciiEnv "foo <!--> foo -->".toList .cmark = "foo <!--> foo -->".toList := by decide +kernel

/-- 2664 -/
example : removeHtmlTags asciiEnv "foo <!-- foo--->".toList .cmark = "foo <!-- foo--->".toList := by decide +kernel

/-- 2681 -/
example : removeHtmlTags asciiEnv "foo <?php echo $a; ?>".toList .github = "foo ".toList := by decide +kernel

/-- 2685 -/
example : removeHtmlTags asciiEnv "foo <?php echo $a; ?>".toList .cmark = "foo ".toList := by decide +kernel

/-- 2694 -/
example : removeHtmlTags asciiEnv "foo <!ELEMENT br EMPTY>".toList .github = "foo ".toList := by decide +kernel

/-- 2698 -/
example : removeHtmlTags asciiEnv "foo <!ELEMENT br EMPTY>".toList .cmark = "foo ".toList := by decide +kernel

/-- 2707 -/
example : removeHtmlTags asciiEnv "foo <![CDATA[>&<]]>".toList .github = "foo ".toList := by decide +kernel

/-- 2711 -/
example : removeHtmlTags asciiEnv "foo <![CDATA[>&<]]>".toList .cmark = "foo ".toList := by decide +kernel

/-- 2720 -/
example : removeHtmlTags asciiEnv "foo <a href=\"&ouml;\">".toList .github = "foo ".toList := by decide +kernel

/-- 2724 -/
example : removeHtmlTags asciiEnv "foo <a href=\"&ouml;\">".toList .cmark = "foo ".toList := by decide +kernel

/-- 2733 -/
example : removeHtmlTags asciiEnv "foo <a href=\"\\*\">".toList .github = "foo ".toList := by decide +kernel

/-- 2737 -/
example : removeHtmlTags asciiEnv "foo <a href=\"\\*\">".toList .cmark = "foo ".toList := by decide +kernel

/-- 2746 -/
example : removeHtmlTags asciiEnv "<a href=\"\"\">".toList .github = "<a href=\"\"\">".toList := by decide +kernel

/-- 2750 -/
example : removeHtmlTags asciiEnv "<a href=\"\"\">".toList .cmark = "<a href=\"\"\">".toList := by decide +kernel

/-- 2758 -/
example : removeHtmlTags asciiEnv "<title>".toList .github = "<title>".toList := by decide +kernel

/-- 2759 -/
example : removeHtmlTags asciiEnv "<textarea>".toList .github = "<textarea>".toList := by decide +kernel

/-- 2761 -/
example : removeHtmlTags asciiEnv "<style>".toList .github = "<style>".toList := by decide +kernel

/-- 2762 -/
example : removeHtmlTags asciiEnv "<xmp>".toList .github = "<xmp>".toList := by decide +kernel

/-- 2763 -/
example : removeHtmlTags asciiEnv "<iframe>".toList .github = "<iframe>".toList := by decide +kernel

/-- 2765 -/
example : removeHtmlTags asciiEnv "<noembed>".toList .github = "<noembed>".toList := by decide +kernel

/-- 2769 -/
example : removeHtmlTags asciiEnv "<noframes>".toList .github = "<noframes>".toList := by decide +kernel

/-- 2771 -/
example : removeHtmlTags asciiEnv "<script>".toList .github = "<script>".toList := by decide +kernel

/-- 2773 -/
example : removeHtmlTags asciiEnv "<plaintext>".toList .github = "<plaintext>".toList := by decide +kernel

end MdToc.Conformance
