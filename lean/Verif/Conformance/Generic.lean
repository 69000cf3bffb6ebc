import Verif.Write

/-!
# Assertions of `/repo/md_toc/tests/tests.py` checked on the model

Generated by `/verif/tools/gen_conformance.py`.  These are tests of the model, not proofs of
properties.  The comment of each example is the line of the assertion.
-/

namespace MdToc.Conformance

set_option maxRecDepth 100000

/-- 262 -/
example : replaceSubstring "".toList "".toList 0 0 = .ok "".toList := by decide +kernel

/-- 263 -/
example : replaceSubstring "".toList "".toList 1024 1024 = .ok "".toList := by decide +kernel

/-- 265 -/
example : replaceSubstring "".toList "foo".toList 0 0 = .ok "".toList := by decide +kernel

/-- 267 -/
example : replaceSubstring "foo".toList "".toList 0 0 = .ok "oo".toList := by decide +kernel

/-- 272 -/
example : replaceSubstring "foo".toList "foo".toList 0 0 = .ok "foooo".toList := by decide +kernel

/-- 276 -/
example : replaceSubstring "foo".toList "foo".toList 1 1 = .ok "ffooo".toList := by decide +kernel

/-- 280 -/
example : replaceSubstring "foo".toList "foo".toList 2 2 = .ok "fofoo".toList := by decide +kernel

/-- 284 -/
example : replaceSubstring "foo".toList "foo".toList 1 2 = .ok "ffoo".toList := by decide +kernel

/-- 288 -/
example : replaceSubstring "foo".toList "foo".toList 0 2 = .ok "foo".toList := by decide +kernel

/-- 294 -/
example : replaceSubstring "foofoofoofoo".toList "a".toList 4 8 = .ok "foofafoo".toList := by decide +kernel

/-- 299 -/
example : replaceSubstring "b".toList "a".toList 0 0 = .ok "a".toList := by decide +kernel

/-- 300 -/
example : replaceSubstring "b".toList "a".toList 0 1 = .ok "a".toList := by decide +kernel

/-- 301 -/
example : replaceSubstring "b".toList "a".toList 1 1 = .ok "b".toList := by decide +kernel

/-- 303 -/
example : replaceSubstring "bcdef".toList "a".toList 4 4 = .ok "bcdea".toList := by decide +kernel

/-- 305 -/
example : replaceSubstring "bcdef".toList "a".toList 0 0 = .ok "acdef".toList := by decide +kernel

/-- 308 -/
example : replaceSubstring "bcdef".toList "a".toList 1 4 = .ok "ba".toList := by decide +kernel

/-- 309 -/
example : replaceSubstring "bcdef".toList "a".toList 1 999999999999 = .ok "ba".toList := by decide +kernel

/-- 311 -/
example : replaceSubstring "bcdef".toList "a".toList 0 2 = .ok "aef".toList := by decide +kernel

/-- 312 -/
example : replaceSubstring "bcdef".toList "a".toList 0 999999999999 = .ok "a".toList := by decide +kernel

/-- 323 -/
example : replaceSubstring "ba".toList "a".toList 1 0 = .error .ValueError := by decide +kernel

/-- 325 -/
example : replaceSubstring "ba".toList "a".toList 4 2 = .error .ValueError := by decide +kernel

/-- 329 -/
example : stringEmpty asciiEnv "".toList = true := by decide +kernel

/-- 330 -/
example : stringEmpty asciiEnv "\n".toList = true := by decide +kernel

/-- 331 -/
example : stringEmpty asciiEnv "\r".toList = true := by decide +kernel

/-- 332 -/
example : stringEmpty asciiEnv "\x0b".toList = true := by decide +kernel

/-- 333 -/
example : stringEmpty asciiEnv "\t".toList = true := by decide +kernel

/-- 334 -/
example : stringEmpty asciiEnv " ".toList = true := by decide +kernel

/-- 335 -/
example : stringEmpty asciiEnv "\r\n".toList = true := by decide +kernel

/-- 336 -/
example : stringEmpty asciiEnv " \r\n".toList = true := by decide +kernel

/-- 337 -/
example : stringEmpty asciiEnv " \r\r\n\r".toList = true := by decide +kernel

/-- 339 -/
example : stringEmpty asciiEnv " \r\n\n\r".toList = false := by decide +kernel

/-- 343 -/
example : stringEmpty asciiEnv "\n\r".toList = false := by decide +kernel

/-- 345 -/
example : stringEmpty asciiEnv " \ra\r".toList = false := by decide +kernel

/-- 346 -/
example : stringEmpty asciiEnv " \r \r".toList = true := by decide +kernel

/-- 347 -/
example : stringEmpty asciiEnv " abcd ".toList = false := by decide +kernel

/-- 351 -/
example : detectTocList asciiEnv "".toList = false := by decide +kernel

/-- 354 -/
example : detectTocList asciiEnv "- list".toList = true := by decide +kernel

/-- 355 -/
example : detectTocList asciiEnv "+ list".toList = true := by decide +kernel

/-- 356 -/
example : detectTocList asciiEnv "* list".toList = true := by decide +kernel

/-- 357 -/
example : detectTocList asciiEnv "- [list".toList = true := by decide +kernel

/-- 358 -/
example : detectTocList asciiEnv "+ [list".toList = true := by decide +kernel

/-- 359 -/
example : detectTocList asciiEnv "* [list".toList = true := by decide +kernel

/-- 361 -/
example : detectTocList asciiEnv "-  list".toList = false := by decide +kernel

/-- 362 -/
example : detectTocList asciiEnv "+  list".toList = false := by decide +kernel

/-- 363 -/
example : detectTocList asciiEnv "*  list".toList = false := by decide +kernel

/-- 364 -/
example : detectTocList asciiEnv "- \tlist".toList = false := by decide +kernel

/-- 365 -/
example : detectTocList asciiEnv "+ \tlist".toList = false := by decide +kernel

/-- 366 -/
example : detectTocList asciiEnv "* \tlist".toList = false := by decide +kernel

/-- 367 -/
example : detectTocList asciiEnv "- \t[list".toList = false := by decide +kernel

/-- 368 -/
example : detectTocList asciiEnv "+ \t[list".toList = false := by decide +kernel

/-- 369 -/
example : detectTocList asciiEnv "* \t[list".toList = false := by decide +kernel

/-- 371 -/
example : detectTocList asciiEnv " - list".toList = true := by decide +kernel

/-- 372 -/
example : detectTocList asciiEnv " + list".toList = true := by decide +kernel

/-- 373 -/
example : detectTocList asciiEnv " * list".toList = true := by decide +kernel

/-- 374 -/
example : detectTocList asciiEnv "  - list".toList = true := by decide +kernel

/-- 375 -/
example : detectTocList asciiEnv "  + list".toList = true := by decide +kernel

/-- 376 -/
example : detectTocList asciiEnv "  * list".toList = true := by decide +kernel

/-- 377 -/
example : detectTocList asciiEnv "   - list".toList = true := by decide +kernel

/-- 378 -/
example : detectTocList asciiEnv "   + list".toList = true := by decide +kernel

/-- 379 -/
example : detectTocList asciiEnv "   * list".toList = true := by decide +kernel

/-- 380 -/
example : detectTocList asciiEnv "    - list".toList = false := by decide +kernel

/-- 381 -/
example : detectTocList asciiEnv "    + list".toList = false := by decide +kernel

/-- 382 -/
example : detectTocList asciiEnv "    * list".toList = false := by decide +kernel

/-- 384 -/
example : detectTocList asciiEnv " - [list".toList = true := by decide +kernel

/-- 385 -/
example : detectTocList asciiEnv " + [list".toList = true := by decide +kernel

/-- 386 -/
example : detectTocList asciiEnv " * [list".toList = true := by decide +kernel

/-- 387 -/
example : detectTocList asciiEnv "  - [list".toList = true := by decide +kernel

/-- 388 -/
example : detectTocList asciiEnv "  + [list".toList = true := by decide +kernel

/-- 389 -/
example : detectTocList asciiEnv "  * [list".toList = true := by decide +kernel

/-- 390 -/
example : detectTocList asciiEnv "   - [list".toList = true := by decide +kernel

/-- 391 -/
example : detectTocList asciiEnv "   + [list".toList = true := by decide +kernel

/-- 392 -/
example : detectTocList asciiEnv "   * [list".toList = true := by decide +kernel

/-- 394 -/
example : detectTocList asciiEnv " - \tlist".toList = false := by decide +kernel

/-- 395 -/
example : detectTocList asciiEnv " + \tlist".toList = false := by decide +kernel

/-- 396 -/
example : detectTocList asciiEnv " * \tlist".toList = false := by decide +kernel

/-- 397 -/
example : detectTocList asciiEnv " - \t[list".toList = false := by decide +kernel

/-- 398 -/
example : detectTocList asciiEnv " + \t[list".toList = false := by decide +kernel

/-- 399 -/
example : detectTocList asciiEnv " * \t[list".toList = false := by decide +kernel

/-- 402 -/
example : detectTocList asciiEnv "1. list".toList = true := by decide +kernel

/-- 403 -/
example : detectTocList asciiEnv "9999. list".toList = true := by decide +kernel

/-- 404 -/
example : detectTocList asciiEnv "1) list".toList = true := by decide +kernel

/-- 405 -/
example : detectTocList asciiEnv "9999) list".toList = true := by decide +kernel

/-- 406 -/
example : detectTocList asciiEnv "1) [list".toList = true := by decide +kernel

/-- 407 -/
example : detectTocList asciiEnv "9999) [list".toList = true := by decide +kernel

/-- 408 -/
example : detectTocList asciiEnv "1.  list".toList = false := by decide +kernel

/-- 409 -/
example : detectTocList asciiEnv "9999.  list".toList = false := by decide +kernel

/-- 410 -/
example : detectTocList asciiEnv "1)  list".toList = false := by decide +kernel

/-- 411 -/
example : detectTocList asciiEnv "9999)  list".toList = false := by decide +kernel

/-- 412 -/
example : detectTocList asciiEnv "1)  [list".toList = false := by decide +kernel

/-- 413 -/
example : detectTocList asciiEnv "9999)  [list".toList = false := by decide +kernel

/-- 415 -/
example : detectTocList asciiEnv " 1. list".toList = true := by decide +kernel

/-- 416 -/
example : detectTocList asciiEnv " 9999. list".toList = true := by decide +kernel

/-- 417 -/
example : detectTocList asciiEnv " 1) list".toList = true := by decide +kernel

/-- 418 -/
example : detectTocList asciiEnv " 9999) list".toList = true := by decide +kernel

/-- 419 -/
example : detectTocList asciiEnv " 1) [list".toList = true := by decide +kernel

/-- 420 -/
example : detectTocList asciiEnv " 9999) [list".toList = true := by decide +kernel

/-- 421 -/
example : detectTocList asciiEnv " 1.  list".toList = false := by decide +kernel

/-- 422 -/
example : detectTocList asciiEnv " 9999.  list".toList = false := by decide +kernel

/-- 423 -/
example : detectTocList asciiEnv " 1)  list".toList = false := by decide +kernel

/-- 424 -/
example : detectTocList asciiEnv " 9999)  list".toList = false := by decide +kernel

/-- 425 -/
example : detectTocList asciiEnv " 1)  [list".toList = false := by decide +kernel

/-- 426 -/
example : detectTocList asciiEnv " 9999)  [list".toList = false := by decide +kernel

/-- 428 -/
example : detectTocList asciiEnv "  1. list".toList = true := by decide +kernel

/-- 429 -/
example : detectTocList asciiEnv "  9999. list".toList = true := by decide +kernel

/-- 430 -/
example : detectTocList asciiEnv "  1) list".toList = true := by decide +kernel

/-- 431 -/
example : detectTocList asciiEnv "  9999) list".toList = true := by decide +kernel

/-- 432 -/
example : detectTocList asciiEnv "  1) [list".toList = true := by decide +kernel

/-- 433 -/
example : detectTocList asciiEnv "  9999) [list".toList = true := by decide +kernel

/-- 434 -/
example : detectTocList asciiEnv "  1.  list".toList = false := by decide +kernel

/-- 435 -/
example : detectTocList asciiEnv "  9999.  list".toList = false := by decide +kernel

/-- 436 -/
example : detectTocList asciiEnv "  1)  list".toList = false := by decide +kernel

/-- 437 -/
example : detectTocList asciiEnv "  9999)  list".toList = false := by decide +kernel

/-- 438 -/
example : detectTocList asciiEnv "  1)  [list".toList = false := by decide +kernel

/-- 439 -/
example : detectTocList asciiEnv "  9999)  [list".toList = false := by decide +kernel

/-- 441 -/
example : detectTocList asciiEnv "   1. list".toList = true := by decide +kernel

/-- 442 -/
example : detectTocList asciiEnv "   9999. list".toList = true := by decide +kernel

/-- 443 -/
example : detectTocList asciiEnv "   1) list".toList = true := by decide +kernel

/-- 444 -/
example : detectTocList asciiEnv "   9999) list".toList = true := by decide +kernel

/-- 445 -/
example : detectTocList asciiEnv "   1) [list".toList = true := by decide +kernel

/-- 446 -/
example : detectTocList asciiEnv "   9999) [list".toList = true := by decide +kernel

/-- 447 -/
example : detectTocList asciiEnv "   1.  list".toList = false := by decide +kernel

/-- 448 -/
example : detectTocList asciiEnv "   9999.  list".toList = false := by decide +kernel

/-- 449 -/
example : detectTocList asciiEnv "   1)  list".toList = false := by decide +kernel

/-- 450 -/
example : detectTocList asciiEnv "   9999)  list".toList = false := by decide +kernel

/-- 451 -/
example : detectTocList asciiEnv "   1)  [list".toList = false := by decide +kernel

/-- 452 -/
example : detectTocList asciiEnv "   9999)  [list".toList = false := by decide +kernel

/-- 454 -/
example : detectTocList asciiEnv "    1. list".toList = false := by decide +kernel

/-- 455 -/
example : detectTocList asciiEnv "    9999. list".toList = false := by decide +kernel

/-- 456 -/
example : detectTocList asciiEnv "    1) list".toList = false := by decide +kernel

/-- 457 -/
example : detectTocList asciiEnv "    9999) list".toList = false := by decide +kernel

/-- 458 -/
example : detectTocList asciiEnv "    1) [list".toList = false := by decide +kernel

/-- 459 -/
example : detectTocList asciiEnv "    9999) [list".toList = false := by decide +kernel

/-- 460 -/
example : detectTocList asciiEnv "    1.  list".toList = false := by decide +kernel

/-- 461 -/
example : detectTocList asciiEnv "    9999.  list".toList = false := by decide +kernel

/-- 462 -/
example : detectTocList asciiEnv "    1)  list".toList = false := by decide +kernel

/-- 463 -/
example : detectTocList asciiEnv "    9999)  list".toList = false := by decide +kernel

/-- 464 -/
example : detectTocList asciiEnv "    1)  [list".toList = false := by decide +kernel

/-- 465 -/
example : detectTocList asciiEnv "    9999)  [list".toList = false := by decide +kernel

/-- 469 -/
example : readLineInterval "".toList 1 1 = "".toList := by decide +kernel

/-- 470 -/
example : readLineInterval "".toList 0 1 = "".toList := by decide +kernel

/-- 471 -/
example : readLineInterval "".toList 1 0 = "".toList := by decide +kernel

/-- 472 -/
example : readLineInterval "".toList 0 0 = "".toList := by decide +kernel

/-- 473 -/
example : readLineInterval "a".toList 1 1 = "a".toList := by decide +kernel

/-- 474 -/
example : readLineInterval "a".toList 0 1 = "".toList := by decide +kernel

/-- 475 -/
example : readLineInterval "a".toList 1 0 = "".toList := by decide +kernel

/-- 476 -/
example : readLineInterval "a".toList 0 0 = "".toList := by decide +kernel

/-- 477 -/
example : readLineInterval "a\ra".toList 1 1 = "a".toList := by decide +kernel

/-- 478 -/
example : readLineInterval "a\ra".toList 1 2 = "aa".toList := by decide +kernel

/-- 479 -/
example : readLineInterval "a\ra".toList 2 2 = "a".toList := by decide +kernel

/-- 480 -/
example : readLineInterval "a\r\na".toList 2 2 = "a".toList := by decide +kernel

/-- 482 -/
example : readLineInterval "a\n\rb".toList 1 1 = "a\n\rb".toList := by decide +kernel

/-- 484 -/
example : readLineInterval "a\n\rb\r\nc".toList 1 2 = "a\n\rbc".toList := by decide +kernel

/-- 487 -/
example : readLineInterval "ab\r\nc".toList 1 2 = "abc".toList := by decide +kernel

/-- 489 -/
example : readLineInterval "ab\r\nc".toList 2 2 = "c".toList := by decide +kernel

/-- 491 -/
example : readLineInterval "ab\r\n\nc".toList 2 2 = "".toList := by decide +kernel

/-- 493 -/
example : readLineInterval "ab\r\n\nc".toList 2 3 = "c".toList := by decide +kernel

/-- 1276 -/
example : buildTocLineNoIndent ⟨6, "This is a static line".toList, "This is a static line".toList, true⟩ false true 1 .github "-".toList = .ok "- This is a static line".toList := by decide +kernel

/-- 1286 -/
example : buildTocLineNoIndent ⟨6, "This is a static line".toList, "This is a static line".toList, true⟩ false false 1 .github "-".toList = .ok "- [This is a static line](#This is a static line)".toList := by decide +kernel

/-- 1297 -/
example : buildTocLineNoIndent ⟨6, "This is a static line".toList, "This is a static line".toList, true⟩ true true 1 .github ".".toList = .ok "1. This is a static line".toList := by decide +kernel

/-- 1308 -/
example : buildTocLineNoIndent ⟨6, "This is a static line".toList, "This is a static line".toList, true⟩ true false 1 .github ".".toList = .ok "1. [This is a static line](#This is a static line)".toList := by decide +kernel

/-- 2786 -/
example : punctuationFilter asciiEnv "September\u2013October".toList .github = "SeptemberOctober".toList := by decide +kernel

/-- 2790 -/
example : punctuationFilter asciiEnv "2:00\u20133:00".toList .github = "200300".toList := by decide +kernel

/-- 2793 -/
example : punctuationFilter asciiEnv "Pages 113\u2013117".toList .github = "Pages 113117".toList := by decide +kernel

/-- 2786 -/
example : punctuationFilter asciiEnv "September\u2010October".toList .github = "SeptemberOctober".toList := by decide +kernel

/-- 2790 -/
example : punctuationFilter asciiEnv "2:00\u20103:00".toList .github = "200300".toList := by decide +kernel

/-- 2793 -/
example : punctuationFilter asciiEnv "Pages 113\u2010117".toList .github = "Pages 113117".toList := by decide +kernel

/-- 2786 -/
example : punctuationFilter asciiEnv "September\u2212October".toList .github = "SeptemberOctober".toList := by decide +kernel

/-- 2790 -/
example : punctuationFilter asciiEnv "2:00\u22123:00".toList .github = "200300".toList := by decide +kernel

/-- 2793 -/
example : punctuationFilter asciiEnv "Pages 113\u2212117".toList .github = "Pages 113117".toList := by decide +kernel

/-- 2786 -/
example : punctuationFilter asciiEnv "September\u2014October".toList .github = "SeptemberOctober".toList := by decide +kernel

/-- 2790 -/
example : punctuationFilter asciiEnv "2:00\u20143:00".toList .github = "200300".toList := by decide +kernel

/-- 2793 -/
example : punctuationFilter asciiEnv "Pages 113\u2014117".toList .github = "Pages 113117".toList := by decide +kernel

/-- 2786 -/
example : punctuationFilter asciiEnv "September\tOctober".toList .github = "SeptemberOctober".toList := by decide +kernel

/-- 2790 -/
example : punctuationFilter asciiEnv "2:00\t3:00".toList .github = "200300".toList := by decide +kernel

/-- 2793 -/
example : punctuationFilter asciiEnv "Pages 113\t117".toList .github = "Pages 113117".toList := by decide +kernel

/-- 2786 -/
example : punctuationFilter asciiEnv "September\x0bOctober".toList .github = "SeptemberOctober".toList := by decide +kernel

/-- 2790 -/
example : punctuationFilter asciiEnv "2:00\x0b3:00".toList .github = "200300".toList := by decide +kernel

/-- 2793 -/
example : punctuationFilter asciiEnv "Pages 113\x0b117".toList .github = "Pages 113117".toList := by decide +kernel

/-- 2799 -/
example : punctuationFilter asciiEnv "SeptemberfooOctober".toList .github = "SeptemberfooOctober".toList := by decide +kernel

/-- 2803 -/
example : punctuationFilter asciiEnv "2:00foo3:00".toList .github = "200foo300".toList := by decide +kernel

/-- 2806 -/
example : punctuationFilter asciiEnv "Pages 113foo117".toList .github = "Pages 113foo117".toList := by decide +kernel

/-- 2799 -/
example : punctuationFilter asciiEnv "September-October".toList .github = "September-October".toList := by decide +kernel

/-- 2803 -/
example : punctuationFilter asciiEnv "2:00-3:00".toList .github = "200-300".toList := by decide +kernel

/-- 2806 -/
example : punctuationFilter asciiEnv "Pages 113-117".toList .github = "Pages 113-117".toList := by decide +kernel

/-- 2799 -/
example : punctuationFilter asciiEnv "September October".toList .github = "September October".toList := by decide +kernel

/-- 2803 -/
example : punctuationFilter asciiEnv "2:00 3:00".toList .github = "200 300".toList := by decide +kernel

/-- 2806 -/
example : punctuationFilter asciiEnv "Pages 113 117".toList .github = "Pages 113 117".toList := by decide +kernel

/-- 2827 -/
example : (buildAnchorLink asciiEnv "foo\nfoo".toList (fun _ => 0) .github).map Prod.fst = .error .StringCannotContainNewlines := by decide +kernel

/-- 2834 -/
example : (buildAnchorLink asciiEnv "foo   foo".toList (fun _ => 0) .gitlab).map Prod.fst = .ok "foo-foo".toList := by decide +kernel

/-- 2840 -/
example : (buildAnchorLink asciiEnv "foo------foo".toList (fun _ => 0) .gitlab).map Prod.fst = .ok "foo-foo".toList := by decide +kernel

/-- 2845 -/
example : (buildAnchorLink asciiEnv "foo------".toList (fun _ => 0) .gitlab).map Prod.fst = .ok "foo-".toList := by decide +kernel

/-- 2849 -/
example : (buildAnchorLink asciiEnv "------foo".toList (fun _ => 0) .gitlab).map Prod.fst = .ok "-foo".toList := by decide +kernel

/-- 2856 -/
example : replaceAndSplitNewlines "\nfoo\n".toList = ["foo".toList] := by decide +kernel

/-- 2859 -/
example : replaceAndSplitNewlines "\n\rfoo\n".toList = ["foo".toList] := by decide +kernel

/-- 2864 -/
example : replaceAndSplitNewlines "bar\r\nfoo\n".toList = ["bar".toList, "foo".toList] := by decide +kernel

/-- 2870 -/
example : replaceAndSplitNewlines "\r\n\n\nbar".toList = ["bar".toList] := by decide +kernel

/-- 2875 -/
example : replaceAndSplitNewlines "\n\n\nbar".toList = ["bar".toList] := by decide +kernel

/-- 2879 -/
example : replaceAndSplitNewlines "\nfoo\n\n\r\nbar".toList = ["foo".toList, "".toList, "".toList, "bar".toList] := by decide +kernel

end MdToc.Conformance
