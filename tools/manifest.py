#!/usr/bin/env python3
"""Regenerates MANIFEST.json from the table below."""
import json, os
T = {}
def claim(p, status, theorems, note):
    T[p] = {"property": p, "status": status, "theorems": ["Verif." + t for t in theorems], "note": note}

claim("C01", "proved", ["C01_xref_points_at_objects", "C01_saved"], "every object list with distinct numbers; and every run of calls after opening a file with distinct numbers; toStream/xref, for all object lists with distinct ids in 1..lastID")
claim("C02", "proved", ["C02_xref_table_well_formed", "C02_saved"], "every run; row count, 20-byte rows, free list")
claim("C03", "proved", ["C03_trailer_agrees", "C03_saved"], "every run; trailer Size/Root/Encrypt and startxref")
claim("C05", "partial", ["C05_remove_page_partial"], "proved for documents whose page tree root dictionary is ASCII without free-standing angle brackets (other bodies are not rewritten faithfully, see C13)")
claim("C06", "partial", ["C06_duplicate_page_partial", "C06_duplicate_succeeds_partial"], "proved when the page tree root and the copied page dictionary are clean (see C13) and numbers stay below 2^63")
claim("C07", "partial", ["C07_refuted_keeps_next_page", "C07_refuted_last_page_panics", "C07_one_page_left_partial"], "violated: keeps page k+1, crashes for the last page (for every document); proved: exactly one page is left")
claim("C08", "partial", ["C08_too_large_rejected_partial", "C08_refuted_not_positive", "C08_refuted_zero_accepted", "C08_refuted_position"], "numbers above the page count rejected; violated for numbers below 1 and for positions out of range")
claim("C09", "partial", ["C09_history_is_list_editing_partial"], "all finite histories of RemovePage and DuplicatePageAfter; page and root dictionaries clean (see C13)")
claim("C10", "partial", ["C10_frame_partial"], "root and copied page clean (see C13)")
claim("C11", "partial", ["C11_copy_is_independent_partial"], "own page and content object, fresh numbers, same content")
claim("C13", "partial", ["C13_rewrite_lossless_partial", "C13_refuted_high_bytes", "C13_refuted_lone_angle"], "proved for ASCII bodies without free-standing angle brackets; refuted otherwise")
claim("C14", "partial", ["C14_refs_round_trip_partial", "C14_written_array_partial", "C14_refuted_empty_array"], "proved for references and non-empty arrays; the empty array is read as an error")
claim("C23", "proved", ["C23_wrap", "C23_call"], "every token list, every measure; see the theorem for what a line is. C23_call: the same for calls of InsertWrapText on a value with a font in use (using_of_run: after any calls), with the widths of C25_kerned and all values of the drawn texts")
claim("C24", "partial", ["C24_breaker_lossless_partial", "C24_refuted_all", "C24_refuted_invalid_utf8"], "proved for valid UTF-8, and violated by every other text (C24_refuted_all): invalid bytes come back as U+FFFD")
claim("C25", "proved", ["C25_width_is_sum", "C25_width_additive", "C25_drawn_width", "C25_kerned", "C25_call"], "exact arithmetic instead of float64; C25_kerned: with kerning the advances are added; C25_call: for calls of MeasureTextWidth on a value with a font in use")
claim("C26", "proved", ["C26_drawn_glyphs"], "with any kerning and text rise override")
claim("C27", "partial", ["C27_to_unicode_partial", "C27_refuted_all", "C27_refuted_shared_glyph", "C27_refuted_supplementary"], "proved for distinct glyphs and the basic plane; violated by every other character (C27_refuted_all)")
claim("C28", "partial", ["C28_made", "C28_subset_partial", "C28_shared_partial", "C28_refuted_shared_glyph", "C28_refuted_all"], "proved for used glyphs below the first one that is repeated; in every file in which two characters share a glyph all glyphs with a greater number have an empty outline (C28_refuted_all)")
claim("C29", "partial", ["C29_parts_partial", "C29_refuted_nested", "C29_refuted_all"], "proved when composite parts are used themselves; violated for other nested composites: in every file a glyph that is only a part of a part has an empty outline (C29_refuted_all)")
claim("C30", "partial", ["C30_format4", "C30_format12_partial", "C30_refuted_last_of_group"], "format 4 proved for well-formed tables; format 12 misses the last character of every group; in terms of the font file: C77")
claim("C31", "proved", ["C31_width_array"], "")
claim("C32", "proved", ["C32_table_directory"], "file below 4 GiB; checksums of copied tables are those of the source font")
claim("C33", "partial", ["C33_stream_decrypts", "C33_no_stream_partial", "C33_refuted_all", "C33_refuted_word_stream", "C33_rc4_vectors"], "MD5 abstract; RC4 checked against published results; proved for all stream objects; every object with the word stream but not the word endstream makes saving crash (C33_refuted_all)")
claim("C34", "partial", ["C34_length_kept_partial", "C34_refuted_all", "C34_refuted_line_end"], "violated for streams that begin or end with a line end, by every stream with two or more such bytes (C34_refuted_all)")
claim("C35", "partial", ["C35_password_entries_partial", "C35_low_byte", "C35_refuted_all", "C35_refuted_high_bits"], "proved for permission words below 256; violated by every permission word with one of the bits 8 to 31 (C35_refuted_all), whatever the hash function: the key is made from other bytes than the written ones")
claim("C36", "proved", ["C36_escape_round_trip", "C36_dictionary"], "all byte strings")
claim("C37", "proved", ["C37_unit_conversion"], "all integers n, all u > 0")
claim("C41", "partial", ["C41_small_numbers_partial", "C41_refuted_large_numbers"], "violated for every value from 32768 on")
claim("C42", "partial", ["C42_rgb_planes_partial", "C42_refuted_gray", "C42_refuted_gray_same_object"], "RGB with alpha proved (dimensions and chunks below 32768); gray with alpha violated")
claim("C47", "proved", ["C47_pages_in_document_order"], "trees of any shape and depth")
claim("C50", "proved", ["C50_style_letters"], "")
claim("C52", "proved", ["C52_read_written", "C52_written_read", "C52_write_frame"], "")
claim("C53", "partial", ["C53_refuted_palette_lost"], "violated for every palette image")
claim("C55", "partial", ["C55_refuted_all", "C55_refuted_plain_string"], "violated: strings outside streams are not encrypted; in every protected file all that stands before the streams is as in the unprotected one (C55_refuted_all)")
claim("C56", "partial", ["C56_reading_ends_partial", "C56_refuted_chunk_size"], "ends always; crashes on data chunks of 32768 to 65535 bytes")
claim("C57", "partial", ["C57_data_kept_partial", "C57_refuted_all", "C57_refuted_empty_chunk"], "violated for files with an empty chunk: all data after it is lost (C57_refuted_all)")
claim("C43", "partial", ["C43_colour_set_partial", "C43_refuted_all", "C43_refuted_sum"], "violated for all colours whose components add up to 256 or 512, whatever the text (C43_refuted_all)")
claim("C54", "proved", ["C54_horizontal", "C54_vertical", "C54_written"], "exact arithmetic instead of float64")
claim("C58", "partial", ["C58_refuted_black", "C58_refuted_all", "C58_default_partial"], "violated for every text: no colour operator is written for black; a text without a colour is set to black")
claim("C59", "proved", ["C59_numbers_accurate"], "exact rationals instead of float64")
claim("C60", "proved", ["C60_borders", "C60_drawn"], "horizontal edges are longer by half the line width at both ends")
claim("C12", "proved", ["C12_fresh_numbers"], "every sequence of API calls after opening a file with distinct, positive numbers")
claim("C17", "partial", ["C17_refuted_deep", "C17_fresh_partial", "C17_saved_partial"], "violated for a page below a second level of the page tree; proved for flat page trees for the whole of Save without encryption (names fresh, distinct, and used by the text operators), for every iteration order")
claim("C18", "partial", ["C18_refuted_all", "C18_refuted", "C18_kept_partial", "C18_saved_partial"], "violated: the name C2_0 becomes C20; on every flat document, each page with an underscore in the name of a font has such a font that is not found after Save (C18_refuted_all); proved for flat page trees and names made of a text and a number, for the whole of Save without encryption")
claim("C19", "partial", ["C19_refuted_reference", "C19_refuted_name", "C19_saved_partial"], "violated for dictionaries given by reference and for names without number; proved for flat page trees, lists in place and names made of letters and a number, for the whole of Save without encryption")
claim("C20", "partial", ["C20_refuted_order", "C20_refuted_page", "C20_first_partial", "C20_more_partial"], "violated: a name in use is given again, and an image is registered on the wrong page; proved for flat page trees without images, and for flat page trees with images if the resources are all in the pages or all in one object and every list has the greatest number last")
claim("C22", "partial", ["C22_refuted_all", "C22_refuted"], "violated by every file that is opened and saved twice after any calls, as long as appending objects does not move them (always so without fonts and images): what was drawn is in the second file twice, on page 1 at least the style of lines that opening draws (C22_refuted_all); the conditions on the file are those of C84, and contents begin with a visible character")
claim("C38", "partial", ["C38_after_open_partial", "C38_refuted", "C38_refuted_all"], "holds directly after opening when the rectangles stand in the pages; violated after RemovePage, and by every well-formed file for each page whose rectangle is an object of its own: it is taken to be 841.89 high (C38_refuted_all)")
claim("C39", "partial", ["C39_unknown_partial", "C39_refuted_all", "C39_refuted"], "holds when the font is unknown; violated by every insertion that fails because of a missing glyph: the text is drawn nevertheless")
claim("C40", "partial", ["C40_setFont", "C40_textrise", "C40_kern", "C40_insert", "C40_addFont", "C40_refuted_measure", "C40_refuted_measure_all", "C40_refuted_wrap"], "proved for all calls but MeasureTextWidth and InsertWrapText with a text breaker, which crash in every state whose font is unknown")
claim("C44", "partial", ["C44_refuted_fails", "C44_refuted_same", "C44_refuted_kept", "C82_open"], "The code violates the property: whatever the value held before, all its objects, rows, contents and images are still there after opening another document (C44_refuted_kept, for every state); only the names of fonts and the cache of images are forgotten (C82_open)")
claim("C45", "proved", ["C45_new", "C45_unknown", "C45_text", "C45_img"], "")
claim("C46", "partial", ["C46_refuted_all", "C46_refuted_inherited", "C46_refuted_cycle", "C46_refuted_kids"], "violated: crashes on every well-formed file with a page that inherits its MediaBox (C46_refuted_all) and missing kids, does not end on a cyclic tree")
claim("C61", "partial", ["C61_one_of_them", "C61_last_annotated_partial", "C61_refuted_first", "C61_refuted_annotations"], "violated: the first version is used unless one has /Annots")
claim("C62", "partial", ["C62_refuted_all", "C62_refuted"], "violated when no resource dictionary has an /XObject entry: C62_refuted_all says that Save then writes the entry, with every inserted image, into the catalog, for every document (linked in the usual way, in the sense of C83) whose resources are objects of their own")
claim("C63", "proved", ["C63_width_is_advance"], "integer kerning values of any size instead of int16; the text rise override prints a number")

claim("C15", "partial", ["C15_contents_partial", "C15_build", "C15_insert", "C15_insert_all", "C15_insertImg", "C15_saved_partial", "C15_refuted_untouched", "C15_refuted_all", "C15_refuted_array"],
  "Proved for the step of Save that writes contents, for pages with a content object of their own (plain or compressed, first byte visible); proved that the injected streams are those of the calls, in order. C15_saved_partial: the whole of Save without encryption, for flat page trees. Refuted: opening adds a line style to page 1 (in every such document, C15_refuted_all), and a page with several content streams gets the drawing after the first one.")
claim("C16", "partial", ["C16_true_length", "C16_read_back_partial", "C16_refuted_leading_space", "C16_refuted_reopen"],
  "The declared length is proved true for every rewritten stream. Reading back is proved for contents that begin with a visible character, and refuted for all that begin with white space (letters of endstream are taken for content, or reading crashes), also for a whole open-insert-save-open-insert-save run.")
claim("C21", "proved", ["C21_cache", "C21_opened"], "For every sequence of successful calls and every digest without collision among the images.")

claim("C48", "partial", ["C48_layout_partial", "C48_refuted"],
      "The code violates the property as stated: C48_refuted (an array read with and without a blank after the bracket). C48_layout_partial: layouts that put white space before words in the same places are read alike, whatever the amount and kind of the white space elsewhere.")
claim("C49", "partial", ["C49_refuted", "C49_refuted_all", "C49_unshared_partial"],
      "The code violates the property: C49_refuted is a document with a resource object shared by two pages, whose keys are repeated after open and save. In every flat document the step that adds the fonts writes each key of a shared resource object with a font list in place as often as there are pages that share it (C49_refuted_all).")
claim("C64", "partial", ["C64_refuted", "C64_fonts_step_partial", "C64_saved_partial"],
      "The code violates the property: C64_refuted is a document with resources in place in one page and by reference in another; the second page loses its fonts.")

claim("C51", "partial", ["C51_fonts_seen_partial", "C51_saved_partial"], "proved for flat page trees for the whole of Save without encryption; deeper page trees are missing (C17_refuted_deep shows that it fails there)")
claim("C65", "partial", ["C65_pages_kept_partial"], "an added /XObject entry is not excluded; proved for flat page trees and Save without encryption; deeper page trees are missing")
claim("C66", "partial", ["C66_others_kept_partial"], "proved for flat page trees and Save without encryption; deeper page trees are missing")
claim("C04", "proved", ["C04_save_open", "C04_saved", "C04_entries"],
      "every list of objects and every run of calls; documents that have a catalog and page sizes (otherwise opening fails by design), distinct numbers, files below 10^10 bytes; bodies without the keywords endobj, trailer, startxref and without texts like rows of a table (C67 shows that these break reading)")
claim("C67", "partial", ["C67_refuted_all", "C67_refuted_cut", "C67_refuted_streams_matter"], "The code violates the property: keywords inside streams cut off objects, make opening fail or crash, or add objects (C67_refuted_streams_matter). C67_refuted_cut: whatever file is opened, no object read has bytes with endobj in them. C67_refuted_all: whatever was opened and called, a saved file with startxref in an object and trailer in none cannot be opened. C04_save_open is what holds.")
claim("C68", "proved", ["C68_protection", "C68_saved", "C68_entries", "C68_named", "C68_contents"],
      "every value and every run of calls; MD5 abstract (sums of 16 bytes); what C15 to C20, C51, C64 to C66 say about documents without protection carries over to the dictionaries by C68_entries and C68_named and to contents by C68_contents")
claim("C69", "partial", ["C69_refuted_all", "C69_refuted_twice", "C69_refuted_clear"], "The code violates the property: build encrypts the objects it shares with the receiver, so that a second Save enciphers them again, which with RC4 gives back the plain streams: the second file has them in the clear (C69_refuted_all: for every protected value, each object that the second Save would otherwise leave alone). For the first Save see C68.")

claim("C70", "partial", ["C70_page_partial", "C70_text", "C70_image", "C70_style", "C15_insert", "C15_insertImg"],
      "C70_text, C70_image and C70_style say what a viewer (Spec/Paint: a reader of content streams with graphics state) paints for one content; C70_page_partial puts them together for a saved page of a flat document without protection. Missing: texts with characters the font does not have, fonts with 0 units per em or a negative underline thickness, rise overrides that do not print numbers, several content streams, other page trees; which kerning and rise apply is part of the statement")
claim("C71", "partial", ["C71_refuted_all", "C71_refuted"], "The code violates the property: the inserted content follows the page's own without q and Q around it. C71_refuted_all: on every page whose own content leaves turned, slanted or shifted coordinates every image is elsewhere, and clipping paths stay. If the page's own content restores the coordinates, C70_page_partial gives the place")
claim("C72", "partial", ["C72_refuted_all", "C72_refuted_second_page", "C72_first_page_partial"], "The code violates the property: the style is always written on page 1 (content_line_style.go:28-30). C72_refuted_all: on all other pages, for every file and all calls, borders have the style the page's own content leaves")
claim("C73", "partial", ["C73_refuted_all", "C73_refuted_rise", "C73_rise_partial", "C82_call"], "The code violates the property: the rise is never set back to 0, so that every text after a raised one is raised (C73_refuted_all). That an override is stored at the named font only is C82_call")
claim("C74", "partial", ["C74_alpha_partial", "C74_plain_partial", "C74_jpeg", "C74_insertImg", "C74_saved_partial", "C74_refuted_format"],
      "Proved with an independent reader of objects (Spec/Object) for JPEG, for gray and RGB PNG without alpha and for RGB PNG with alpha, 8 bits, with dimensions and chunks below 32768 and without empty chunks, given that decompression undoes compression. Violated: gray with alpha (C42), palettes (C53), large sizes (C41), empty chunks (C57), other formats")
claim("C75", "partial", ["C75_saved_partial", "C75_run_partial", "C75_refuted_name", "C75_refuted_name_all", "C75_refuted_twice"],
      "Proved with an independent reader of objects (Spec/Object) for the first Save of flat documents without protection and names of fonts without delimiters. Violated: names with delimiters (C75_refuted_name_all: every name that ends with brackets), and every later save (the buffers of the fonts are appended to)")
claim("C76", "partial", ["C76_saved_partial", "C76_protected_partial", "C76_refuted"],
      "Proved for documents with a flat page tree whose pages meet CanSave, after any calls, with fonts whose tables agree with each other. With protection: exactly if every object with the word stream has endstream after it. Violated: an unedited document cannot be saved if no page has resources, if a font has a name like /Helv or /A_B1, if a font is written in the list of fonts, or if the resources have exactly three words")
claim("C77", "partial", ["C77_read", "C77_accepted", "C77_glyph", "C77_glyph12_partial", "C77_outline", "C77_embedded_partial", "C77_crash_partial", "C77_refuted_glyph12", "C77_refuted_glyph12_all", "C77_refuted_crash", "C77_refuted_missing"],
      "Proved against positions of the OpenType specification (Spec/TtfFile): all values read, acceptance of every sound file, characters up to U+FFFF, outlines. Violated: the last character of every format 12 group of every file has no glyph (C77_refuted_glyph12_all), a file with no horizontal metrics but with glyphs crashes AddFont (the only crash), and a missing hmtx table is not noticed. Embedding has the limits of C28 and C29")
claim("C78", "partial", ["C78_read_partial", "C78_rewritten_partial", "C78_entry", "C78_no_entry", "C78_refuted_blanks", "C78_refuted_slash", "C78_refuted_comment", "C78_refuted_paren"], "proved for simple notation against an independent lexer and reader of objects; outside of it the statement is false, as the refutations show; other notations (other white space, bytes above 126, escapes before special characters) are not covered")
claim("C79", "partial", ["C79_pages_partial", "C79_refuted_indirect", "C79_refuted_stream"], "Proved against an independent reader of objects and page trees for simply written dictionaries (C78). Violated: an indirect array of kids, the word stream in a string")
claim("C80", "partial", ["C80_remove_partial", "C80_duplicate_partial", "C80_duplicate_succeeds_partial", "C80_history_partial", "C80_refuted_parent", "C80_refuted_all"], "Proved against an independent reader of objects and page trees for simply written dictionaries (C78). Violated: in trees with more than one level, pages keep the old /Parent although they are moved below the root, in every such tree (C80_refuted_all)")

claim("C81", "partial", ["C81_objects_partial", "C81_open_partial", "C81_openFrom_partial", "C81_refuted_update", "C81_refuted_forms"],
      "every file with one table, any number of subsections and rows; the description of the file (Spec/File) is independent of the parser. Assumed: the first line of an object has single white-space bytes, no object has endobj inside, and no text before the table or in the trailer looks like trailer, startxref or a row (C67 shows that these matter); dictionaries are simply written (C78); the number syntax of the standard is accepted by ParseFloat. Refuted: a file with an update is opened in its old version (both versions of the object are kept, the first is used); objects of generation 1 or with two blanks in the first line make opening fail. Inherited /MediaBox: see C46")

claim("C82", "proved", ["C82_call", "C82_session", "C82_outcome", "C82_contents", "C82_open"],
      "for every sequence of calls with any outcomes, from every state whose font map is in order (which opening establishes: C82_open); the session (Session.after) is a specification of its own over names")
claim("C83", "partial", ["C83_saved_partial", "C83_content_partial", "C83_refuted_images", "C83_refuted_mixed"],
      "proved for page trees of any shape and every iteration order, for documents linked in the usual way (Spec/StdSave): entries simply written, images in place, resources of all pages either in place or not, content streams of their own. The code violates it for images in a dictionary of their own (they are lost: C83_refuted_images) and for resources partly in place (the page is no longer a dictionary: C83_refuted_mixed). That fonts and images reach every page is the subject of C17, C19, C20 and C70; in deeper trees they do not")
claim("C84", "partial", ["C84_run_partial", "C84_call_partial", "C84_calls_partial", "C84_save_partial", "C84_saved_partial"],
      "proved from the bytes of the opened file to the bytes of the saved file, for files in the sense of Spec/File whose document is linked in the usual way (Spec/StdSave) with one content stream per page of its own; not covered: a Save between the calls (C84_saved_partial says what the receiver holds after one, and C22_refuted_all that contents are drawn again), removing the last page, protection (see C93), incremental updates and object streams. RemoveOtherPages keeps the page after the one named (C09), and that is what Call.edit says. Where the code violates the property for documents of other forms: C75, C79, C81, C83")

claim("C85", "partial", ["C85_file_partial", "C85_refuted_all", "C85_refuted_utf16_all", "C85_refuted_date", "C85_refuted_utf16"],
      "proved for every state, with and without protection; assumed: the file is shorter than 10^10 bytes, the information has no creation date and only characters of the first plane. Violated: a creation date closes the dictionary of the information once too often, so that the trailer of every dated document cannot be read (C85_refuted_all); every text with a character beyond the first plane is not UTF-16 (C85_refuted_utf16_all)")
claim("C86", "partial", ["C86_session_partial", "C86_total", "C86_refuted_empty_all", "C86_refuted_twice_all", "C86_refuted_empty", "C86_refuted_twice"],
      "proved for every sequence of calls that puts no texts and no images on a page, without protection (with one: C92), if something is drawn on each page; that writing succeeds is proved for sessions without fonts. Violated: the object of every page on which nothing is drawn is malformed (C86_refuted_empty_all), and every document that is written twice is malformed the second time (C86_refuted_twice_all). What is drawn before the first page is on no page")
claim("C87", "partial", ["C87_session_partial", "C87_position", "C87_refuted_advance", "C87_refuted_cell_all", "C87_refuted_cell", "C87_refuted_kern", "C87_refuted_measure"],
      "proved for every session of successful calls without protection (with one: C92), if something is on each page and the fonts have a size and underlines that are not negative; a text that is written with the same settings as the one before continues that. Violated: after two texts that were joined the position is too far to the right, every cell that directly follows a text loses its rectangle and edges (C87_refuted_cell_all), overriding the kerning of a font added without kerning has no effect, MeasureTextWidth always crashes")

claim("C88", "partial", ["C88_session_partial", "C88_text", "C88_picture", "C88_refuted_palette", "C88_refuted_mask_all", "C88_refuted_mask", "C88_refuted_font", "C88_refuted_level"],
      "proved for every session of successful calls without protection (with one: C92), if no font is added with the style underline, for images without alpha and palette; the object of an image is the one C74 describes. Violated: documents with an image that has a palette cannot be written, /SMask of every image with alpha names the number one below that of its mask (C88_refuted_mask_all; it can be the image itself, C88_refuted_mask), a font that was added underlined before makes the texts in the plain one use the font F1, levels above 9 change nothing")
claim("C89", "proved", ["C89_session", "C89_text", "C87_position"],
      "for documents without protection; after a text that is added to the one before the pen has moved by the width of both (C87_refuted_advance), which the specification of the pen says")
claim("C90", "partial", ["C90_read_partial", "C90_none", "C90_pair", "C90_refuted_tables", "C90_refuted_format"],
      "proved for tables with one subtable of format 0 that is complete; how texts are made from the distances is C31, C38 and C60. Violated: of several subtables only the last one counts, and a subtable of format 2 is read as pairs (the wrong bits of the coverage are tested)")
claim("C91", "partial", ["C91_open_partial", "C91_refuted_inherited"],
      "proved for documents without information and password whose pages all have a size of their own and something on them, if no object has keywords of the file structure in it. Violated: a page with the size of the document has no /MediaBox of its own, and Open dereferences a nil pointer")
claim("C92", "partial", ["C92_session_partial", "C92_refuted_strings", "C92_refuted_strings_all"],
      "proved for every session of successful calls with permissions in the lowest eight bits (all permissions that are defined), under the conditions of C88; /Encrypt is found in trailers without /Info. Violated: strings in the dictionaries of fonts are not enciphered, so readers find another ordering than Identity; so it is for every font of every protected document (C92_refuted_strings_all)")
claim("C93", "partial", ["C93_run_partial", "C68_saved", "C34_refuted_line_end"],
      "proved under the conditions of C84, with permissions in the lowest eight bits; streams are deciphered up to the line ends around them, which protection drops while /Length still counts them (C34); strings stay in the clear (C55)")
claim("C94", "partial", ["C94_run_partial", "C94_protected_partial", "C71_refuted"],
      "proved under the conditions of C84 for texts whose characters are in the font, fonts with units per em and underlines that are not negative, and overrides that print numbers; the calls make the contents as C45 says. Violated: the place is in the coordinates the page's own content leaves (C71), and page 1 gets the line style that opening adds (C72)")
claim("C95", "partial", ["C95_refuted", "C95_refuted_dropped", "C95_witness"],
      "violated, and proved so: opening looks for /Root only (pdf_parse.go:117-148), so that a protected file is opened without an error; for every such file and all calls that do not ask for protection the saved trailer has no /Encrypt while the streams stay enciphered and drawings are put behind them in the clear (C95_refuted_dropped); C95_witness shows that the file of C95_refuted is protected with a password and what its contents are")
claim("C96", "partial", ["C96_top_partial", "C96_refuted_blank", "C96_refuted_middle", "C96_refuted_bottom", "C96_refuted_gap"],
      "the place is proved for texts aligned to the top whose first token fits. Violated, for every call of the kind: a first token that is too wide is preceded by an empty line, text aligned to the middle is a tenth of the font size too high, of text aligned to the bottom all lines but the first are below the place of a single line; a blank that fits neither behind the word before it nor before the one after it makes an empty line")
claim("C97", "partial", ["C97_refuted_outside", "C97_refuted_accepted", "C97_refuted_bare_all", "C97_refuted_bare", "C97_refuted_shared_all", "C97_refuted_shared", "C15_saved_partial"],
      "holds for pages with a content stream of their own (C15, C84, C94). Violated: insertions on pages the document does not have are dropped without an error (for every document), so are insertions on a page without /Contents (also proved for every document: saving gives the same as without them); of insertions on pages that share their content only those on the last page remain, and they are on all of them (proved for every document)")
claim("C98", "partial", ["C98_refuted_all", "C98_refuted"],
      "violated, and proved so for every flat document: of a page that is drawn on, the encoded bytes are kept and the filter is dropped; because opening draws a line style on page 1 (C72), opening and saving is enough")
claim("C99", "partial", ["C99_refuted_all", "C99_refuted"],
      "violated, and proved so for every flat document and all calls: an object that no page refers to any more is written to the saved file as it was, with a row in the cross-reference table")

claim("C100", "partial", ["C100_line_partial", "C100_refuted_right", "C100_refuted_bottom", "C100_refuted_zero", "C100_refuted_go", "C100_refuted"], "holds at the top left of a cell as wide as the text and for fonts whose ascender is 7 tenths of the em; violated for every text at the right or the bottom of its cell, for every cell of the width 0, for a negative thickness and for every text written by Text of GoPdf")

out = os.path.join(os.path.dirname(os.path.abspath(__file__)), "..", "MANIFEST.json")
json.dump({"claims": [T[k] for k in sorted(T)]}, open(out, "w"), indent=1)
