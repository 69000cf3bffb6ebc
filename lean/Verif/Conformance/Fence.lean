import Verif.Write

/-!
# Assertions of `/repo/md_toc/tests/tests.py` checked on the model

Generated by `/verif/tools/gen_conformance.py`.  These are tests of the model, not proofs of
properties.  The comment of each example is the line of the assertion.
-/

namespace MdToc.Conformance

set_option maxRecDepth 100000

/-- 4071 -/
example : isOpeningCodeFence "This is a static line".toList .github = none := by decide +kernel

/-- 4072 -/
example : isOpeningCodeFence "".toList .github = none := by decide +kernel

/-- 4073 -/
example : isOpeningCodeFence "foo".toList .github = none := by decide +kernel

/-- 4074 -/
example : isOpeningCodeFence "foo\n".toList .github = none := by decide +kernel

/-- 4077 -/
example : isOpeningCodeFence " ".toList .github = none := by decide +kernel

/-- 4078 -/
example : isOpeningCodeFence "  ".toList .github = none := by decide +kernel

/-- 4079 -/
example : isOpeningCodeFence "   ".toList .github = none := by decide +kernel

/-- 4080 -/
example : isOpeningCodeFence "    ".toList .github = none := by decide +kernel

/-- 4081 -/
example : isOpeningCodeFence "          ".toList .github = none := by decide +kernel

/-- 4083 -/
example : isOpeningCodeFence "#".toList .github = none := by decide +kernel

/-- 4084 -/
example : isOpeningCodeFence "##".toList .github = none := by decide +kernel

/-- 4086 -/
example : isOpeningCodeFence "###".toList .github = none := by decide +kernel

/-- 4087 -/
example : isOpeningCodeFence "####".toList .github = none := by decide +kernel

/-- 4088 -/
example : isOpeningCodeFence "#####".toList .github = none := by decide +kernel

/-- 4089 -/
example : isOpeningCodeFence "######".toList .github = none := by decide +kernel

/-- 4090 -/
example : isOpeningCodeFence "#######".toList .github = none := by decide +kernel

/-- 4096 -/
example : isOpeningCodeFence "```".toList .github = (some "```".toList) := by decide +kernel

/-- 4097 -/
example : isOpeningCodeFence "````".toList .github = (some "````".toList) := by decide +kernel

/-- 4098 -/
example : isOpeningCodeFence "``````````".toList .github = (some "``````````".toList) := by decide +kernel

/-- 4103 -/
example : isOpeningCodeFence "~~~".toList .github = (some "~~~".toList) := by decide +kernel

/-- 4104 -/
example : isOpeningCodeFence "~~~~".toList .github = (some "~~~~".toList) := by decide +kernel

/-- 4105 -/
example : isOpeningCodeFence "~~~~~~~~~~".toList .github = (some "~~~~~~~~~~".toList) := by decide +kernel

/-- 4111 -/
example : isOpeningCodeFence "`".toList .github = none := by decide +kernel

/-- 4112 -/
example : isOpeningCodeFence "``".toList .github = none := by decide +kernel

/-- 4113 -/
example : isOpeningCodeFence "``foo".toList .github = none := by decide +kernel

/-- 4115 -/
example : isOpeningCodeFence "``\n`".toList .github = none := by decide +kernel

/-- 4119 -/
example : isOpeningCodeFence "~".toList .github = none := by decide +kernel

/-- 4120 -/
example : isOpeningCodeFence "~~".toList .github = none := by decide +kernel

/-- 4121 -/
example : isOpeningCodeFence "~~foo".toList .github = none := by decide +kernel

/-- 4122 -/
example : isOpeningCodeFence "~~\n~".toList .github = none := by decide +kernel

/-- 4133 -/
example : isOpeningCodeFence "```\n\n  ".toList .github = (some "```".toList) := by decide +kernel

/-- 4139 -/
example : isOpeningCodeFence "~~~\n\n  ".toList .github = (some "~~~".toList) := by decide +kernel

/-- 4154 -/
example : isOpeningCodeFence " ```".toList .github = (some "```".toList) := by decide +kernel

/-- 4156 -/
example : isOpeningCodeFence " ~~~".toList .github = (some "~~~".toList) := by decide +kernel

/-- 4161 -/
example : isOpeningCodeFence "  ```".toList .github = (some "```".toList) := by decide +kernel

/-- 4163 -/
example : isOpeningCodeFence "  ~~~".toList .github = (some "~~~".toList) := by decide +kernel

/-- 4168 -/
example : isOpeningCodeFence "   ```".toList .github = (some "```".toList) := by decide +kernel

/-- 4170 -/
example : isOpeningCodeFence "   ~~~".toList .github = (some "~~~".toList) := by decide +kernel

/-- 4175 -/
example : isOpeningCodeFence "    ```".toList .github = none := by decide +kernel

/-- 4177 -/
example : isOpeningCodeFence "    ~~~".toList .github = none := by decide +kernel

/-- 4182 -/
example : isOpeningCodeFence "   ````".toList .github = (some "````".toList) := by decide +kernel

/-- 4183 -/
example : isOpeningCodeFence "   ``````````".toList .github = (some "``````````".toList) := by decide +kernel

/-- 4189 -/
example : isOpeningCodeFence "   ~~~~".toList .github = (some "~~~~".toList) := by decide +kernel

/-- 4190 -/
example : isOpeningCodeFence "   ~~~~~~~~~~".toList .github = (some "~~~~~~~~~~".toList) := by decide +kernel

/-- 4200 -/
example : isOpeningCodeFence "``` ```".toList .github = none := by decide +kernel

/-- 4203 -/
example : isOpeningCodeFence "~~~ ~~~".toList .github = (some "~~~".toList) := by decide +kernel

/-- 4219 -/
example : isOpeningCodeFence "``` foo\\bar".toList .github = (some "```".toList) := by decide +kernel

/-- 4228 -/
example : isOpeningCodeFence "```ruby".toList .github = (some "```".toList) := by decide +kernel

/-- 4233 -/
example : isOpeningCodeFence "~~~ruby".toList .github = (some "~~~".toList) := by decide +kernel

/-- 4247 -/
example : isOpeningCodeFence "````ruby".toList .github = (some "````".toList) := by decide +kernel

/-- 4251 -/
example : isOpeningCodeFence "``````````ruby".toList .github = (some "``````````".toList) := by decide +kernel

/-- 4255 -/
example : isOpeningCodeFence "```   ruby".toList .github = (some "```".toList) := by decide +kernel

/-- 4259 -/
example : isOpeningCodeFence "```   ruby".toList .cmark = (some "```".toList) := by decide +kernel

/-- 4264 -/
example : isOpeningCodeFence "```\t\t\truby".toList .github = (some "```".toList) := by decide +kernel

/-- 4268 -/
example : isOpeningCodeFence "```\t\t\truby".toList .cmark = (some "```".toList) := by decide +kernel

/-- 4278 -/
example : isOpeningCodeFence "~~~~ruby".toList .github = (some "~~~~".toList) := by decide +kernel

/-- 4282 -/
example : isOpeningCodeFence "~~~~~~~~~~ruby".toList .github = (some "~~~~~~~~~~".toList) := by decide +kernel

/-- 4286 -/
example : isOpeningCodeFence "~~~   ruby".toList .github = (some "~~~".toList) := by decide +kernel

/-- 4290 -/
example : isOpeningCodeFence "~~~   ruby".toList .cmark = (some "~~~".toList) := by decide +kernel

/-- 4295 -/
example : isOpeningCodeFence "~~~\t\t\truby".toList .github = (some "~~~".toList) := by decide +kernel

/-- 4299 -/
example : isOpeningCodeFence "~~~\t\t\truby".toList .cmark = (some "~~~".toList) := by decide +kernel

/-- 4309 -/
example : isOpeningCodeFence "````    ruby startline=3 $%@#$".toList .github = (some "````".toList) := by decide +kernel

/-- 4316 -/
example : isOpeningCodeFence "~~~~    ruby startline=3 $%@#$".toList .github = (some "~~~~".toList) := by decide +kernel

/-- 4326 -/
example : isOpeningCodeFence "````;".toList .github = (some "````".toList) := by decide +kernel

/-- 4328 -/
example : isOpeningCodeFence "~~~~;".toList .github = (some "~~~~".toList) := by decide +kernel

/-- 4333 -/
example : isOpeningCodeFence "``` aa ```".toList .github = none := by decide +kernel

/-- 4337 -/
example : isOpeningCodeFence "~~~ aa ~~~".toList .github = (some "~~~".toList) := by decide +kernel

/-- 4344 -/
example : isOpeningCodeFence "~~~ aa ``` ~~~".toList .github = (some "~~~".toList) := by decide +kernel

/-- 4352 -/
example : isOpeningCodeFence "``` aa ~~~ ```".toList .github = none := by decide +kernel

/-- 4367 -/
example : isClosingCodeFence "```".toList "~~~".toList false .github = false := by decide +kernel

/-- 4372 -/
example : isClosingCodeFence "~~~".toList "```".toList false .github = false := by decide +kernel

/-- 4377 -/
example : isClosingCodeFence "```".toList "````".toList false .github = false := by decide +kernel

/-- 4382 -/
example : isClosingCodeFence "~~~".toList "~~~~".toList false .github = false := by decide +kernel

/-- 4387 -/
example : isClosingCodeFence "".toList "```".toList true .github = true := by decide +kernel

/-- 4389 -/
example : isClosingCodeFence "".toList "~~~".toList true .github = true := by decide +kernel

/-- 4395 -/
example : isClosingCodeFence "\n```\naaa".toList "`````".toList true .github = true := by decide +kernel

/-- 4402 -/
example : isClosingCodeFence "\n~~~\naaa".toList "~~~~~".toList true .github = true := by decide +kernel

/-- 4420 -/
example : isClosingCodeFence "  ```".toList "```".toList false .github = true := by decide +kernel

/-- 4422 -/
example : isClosingCodeFence "  ~~~".toList "~~~".toList false .github = true := by decide +kernel

/-- 4427 -/
example : isClosingCodeFence "  ```".toList "   ```".toList false .github = true := by decide +kernel

/-- 4430 -/
example : isClosingCodeFence "  ~~~".toList "   ~~~".toList false .github = true := by decide +kernel

/-- 4435 -/
example : isClosingCodeFence "    ```".toList "```".toList false .github = false := by decide +kernel

/-- 4437 -/
example : isClosingCodeFence "    ~~~".toList "~~~".toList false .github = false := by decide +kernel

/-- 4440 -/
example : isClosingCodeFence " ```".toList "```".toList false .github = true := by decide +kernel

/-- 4445 -/
example : isClosingCodeFence "~~~ ~~".toList "~~~~~~".toList false .github = false := by decide +kernel

/-- 4448 -/
example : isClosingCodeFence "``` ``".toList "``````".toList false .github = false := by decide +kernel

/-- 4457 -/
example : isClosingCodeFence "``` aaa".toList "```".toList false .github = false := by decide +kernel

/-- 4460 -/
example : isClosingCodeFence "~~~ aaa".toList "~~~".toList false .github = false := by decide +kernel

/-- 4464 -/
example : isClosingCodeFence "```\t".toList "```".toList true .github = true := by decide +kernel

/-- 4466 -/
example : isClosingCodeFence "```\t".toList "```".toList false .github = false := by decide +kernel

/-- 4468 -/
example : isClosingCodeFence "```\t\t\t\t    ".toList "```".toList true .github = true := by decide +kernel

/-- 4471 -/
example : isClosingCodeFence "```\t\t\t\t    ".toList "```".toList false .github = false := by decide +kernel

/-- 4474 -/
example : isClosingCodeFence "~~~\t".toList "~~~".toList true .github = true := by decide +kernel

/-- 4476 -/
example : isClosingCodeFence "~~~\t\t\t\t    ".toList "~~~".toList false .github = false := by decide +kernel

end MdToc.Conformance
